import Verif.Lemmas.Signals
import Verif.Props.Query

/-!
# Property C83: d-connection is complete
-/

namespace Verif

open Graph Relation Macid Net

/-! ## C83 -/

/-- **C83** If `is_dconnected(x, y, Z)` is True then the graph can be given CPDs under which `x` and `y` are dependent given `Z`:
for some outcomes, P(x, y, z) = 0 although P(x, z) > 0 and P(y, z) > 0. -/
theorem C83_dconnected_dependent {net : Net} (hf : net.Fresh) (hw : net.g.WF) {pick : Pick} {x y : Node} {Z : List Node}
    (hx : x ∈ net.g.nodes) (hy : y ∈ net.g.nodes) (hZ : Z ⊆ net.g.nodes)
    (h : isDConnected pick net.g x y Z = .ok true) :
    ∃ rels net', net.addCpds rels = (net', .ok ()) ∧ net'.m = net.m ∧ net'.Good ∧ net'.Normalised ∧
      ∃ (vx vy : Outcome) (vz : Assign),
        net'.P (fun a => decide (a x = vx ∧ a y = vy ∧ ∀ z ∈ Z, a z = vz z)) = 0 ∧
        0 < net'.P (fun a => decide (a x = vx ∧ ∀ z ∈ Z, a z = vz z)) ∧
        0 < net'.P (fun a => decide (a y = vy ∧ ∀ z ∈ Z, a z = vz z)) := by
  obtain ⟨b, e1, e2⟩ := isDConnected_spec hw pick (t := y) hx hZ
  obtain ⟨hxZ, hyZ, p, hp, ha⟩ := e2.1 (by rw [h] at e1; exact (Except.ok.inj e1).symm)
  obtain ⟨P, hP, h0, hn, -, -, -, hh⟩ := Plan.ofPath hw.acyclic hp ha (fun _ => hyZ) (Obs := (· ∈ Z)) (fun v _ hv => hv) (fun v ⟨z, hz, hd⟩ => ⟨z, hz, hd⟩)
  set W := P.wiring P.trailCells true with hW
  have hl : W.Local net.g := P.local_trail hP hh true
  obtain ⟨rels, net', k1, k2, -, k4, k5, k6, -, k8, -⟩ := Net.allowing hf hw (free := fun _ => False) (fun _ => W.dom_sorted) (fun _ => W.dom_ne)
    (Wiring.allows hw hl)
  have hg : net'.g = net.g := by show net'.m.g = net.m.g; rw [k2]
  have hB := bn_prob k4 k5
  have hin : ∀ β, net'.InDom (W.assign β) := fun β v hv => by
    rw [k6 v (hg ▸ hv)]; exact Wiring.assign_dom
  have hposs : ∀ a, net'.bn.Possible a → ∀ v ∈ net.g.nodes, W.R v a := fun a ha v hv =>
    (k8 v hv (fun h => h) a ha.1).1 (ha.2 v (by show v ∈ net'.g.nodes; rw [hg]; exact hv))
  have hworld : ∀ s, net'.bn.Possible (W.assign (P.world true s false)) := fun s => by
    refine ⟨hin _, fun v hv => ?_⟩
    refine (k8 v (hg ▸ hv) (fun h => h) _ (hin _)).2 (Wiring.R_assign hl (P.world_solves (Or.inl rfl) s false ?_) v)
    intro p j hm
    rcases Plan.mem_trailCells.1 hm with ⟨q, _, e⟩ | ⟨q, k, hc, _, e⟩
    · simp at e
    · simp only [Cell.down.injEq] at e; rw [e.1]; exact hc
  have halike : ∀ z ∈ Z, W.assign (P.world true true false) z = W.assign (P.world true false false) z := fun z hz =>
    P.world_alike hP P.trailCells hz (fun _ e => hxZ (by rw [← h0, ← e]; exact hz)) (fun _ hi => Or.inl hi)
      (fun i hi _ => by rcases Plan.mem_trailCells.1 hi with ⟨q, _, rfl⟩ | ⟨q, k, _, _, rfl⟩ <;> simp) _ _ _ _
  have hm : ∀ q ≤ P.n, Cell.main q ∈ W.cells := fun q hq => Plan.mem_trailCells.2 (Or.inl ⟨q, hq, rfl⟩)
  have hnodes : ∀ q ≤ P.n, P.w q ∈ net.g.nodes := by
    intro q hq
    by_cases hq0 : q = 0
    · rw [hq0, h0]; exact hx
    · have := hP.step (q - 1) (by omega)
      rw [show q - 1 + 1 = q by omega] at this
      split at this
      · exact (hw.edgeNodes _ _ this).2
      · exact (hw.edgeNodes _ _ this).1
  refine ⟨rels, net', k1, k2, k4, k5, W.assign (P.world true true false) x, W.assign (P.world true false false) y,
    W.assign (P.world true false false), ?_, ?_, ?_⟩
  · rw [P_eq_W]
    refine BN.W_impossible hB (fun a ha => ?_)
    rw [if_neg]
    simp only [decide_eq_true_eq, not_and]
    intro hax hay haz
    have hrd : ∀ (i : Cell) (s : Bool), i ∈ P.trailCells → a (P.node i) = W.assign (P.world true s false) (P.node i) →
        W.read a i = P.world true s false i := by
      intro i s hi e
      have := Wiring.read_assign (W := W) (β := P.world true s false) (i := i) hi
      unfold Wiring.read at this ⊢
      rw [← this]
      show W.bit i (a (P.node i)) = W.bit i (W.assign _ (P.node i))
      rw [e]
    have r0 : W.read a (.main 0) = true := by
      rw [hrd (.main 0) true (hm 0 (by omega)) (by show a (P.w 0) = _; rw [h0, hax]; show _ = W.assign _ (P.w 0); rw [h0])]
      simp [Plan.world, Plan.not_col_zero]
    have rn : W.read a (.main P.n) = false := by
      rw [hrd (.main P.n) false (hm P.n (le_refl _)) (by show a (P.w P.n) = _; rw [hn, hay]; show _ = W.assign _ (P.w P.n); rw [hn])]
      simp [Plan.world]
    have hruns : P.Runs true (W.read a) := by
      intro i hi
      have hv : P.node i ∈ net.g.nodes := by
        rcases Plan.mem_trailCells.1 hi with ⟨q, hq, rfl⟩ | ⟨q, j, hc, hj, rfl⟩
        · exact hnodes q hq
        · exact (hw.edgeNodes _ _ (hP.fall q hc j hj)).2
      exact (hposs a ha (P.node i) hv).2 i hi rfl
    have key := P.signal hruns (by simp [Plan.gateOpen, hh])
    have hs : P.total (W.read a) P.n = false := by
      rw [P.total_seen hruns, P.seen_congr (β' := fun _ => false), P.seen_false]
      intro c hc
      have hland := hP.land c hc
      rw [hrd (P.landing c) false (P.landing_mem hc) (by rw [P.landing_node hP hc]; exact haz _ hland)]
      unfold Plan.landing
      split <;> simp [Plan.world]
    rw [r0, rn, hs] at key
    simp at key
  · rw [P_eq_W]
    refine BN.W_pos hB (fun a _ => by split <;> norm_num) (fun a b hab => ?_) (hworld true) ?_
    · have e1 := hab x (by show x ∈ net'.g.nodes; rw [hg]; exact hx)
      have e2 : ∀ z ∈ Z, a z = b z := fun z hz => hab z (by show z ∈ net'.g.nodes; rw [hg]; exact hZ hz)
      have : (∀ z ∈ Z, a z = W.assign (P.world true false false) z) ↔ ∀ z ∈ Z, b z = W.assign (P.world true false false) z :=
        ⟨fun q z hz => by rw [← e2 z hz, q z hz], fun q z hz => by rw [e2 z hz, q z hz]⟩
      simp only [e1, this]
    · rw [if_pos (by simp only [decide_eq_true_eq, true_and]; exact halike)]; norm_num
  · rw [P_eq_W]
    refine BN.W_pos hB (fun a _ => by split <;> norm_num) (fun a b hab => ?_) (hworld false) ?_
    · have e1 := hab y (by show y ∈ net'.g.nodes; rw [hg]; exact hy)
      have e2 : ∀ z ∈ Z, a z = b z := fun z hz => hab z (by show z ∈ net'.g.nodes; rw [hg]; exact hZ hz)
      have : (∀ z ∈ Z, a z = W.assign (P.world true false false) z) ↔ ∀ z ∈ Z, b z = W.assign (P.world true false false) z :=
        ⟨fun q z hz => by rw [← e2 z hz, q z hz], fun q z hz => by rw [e2 z hz, q z hz]⟩
      simp only [e1, this]
    · rw [if_pos (by simp only [decide_eq_true_eq, true_and, implies_true])]; norm_num

/-- **C83** So `is_dconnected(x, y, Z)` is True exactly if some set of CPDs for the graph makes `x` and `y` dependent given `Z`. -/
theorem C83_iff {net : Net} (hf : net.Fresh) (hw : net.g.WF) (pick : Pick) {x y : Node} {Z : List Node}
    (hx : x ∈ net.g.nodes) (hy : y ∈ net.g.nodes) (hZ : Z ⊆ net.g.nodes) :
    isDConnected pick net.g x y Z = .ok true ↔
      ∃ rels net', net.addCpds rels = (net', .ok ()) ∧ net'.m = net.m ∧ net'.Good ∧ net'.Normalised ∧
        ∃ (vx vy : Outcome) (vz : Assign),
          net'.P (fun a => decide (a x = vx ∧ a y = vy ∧ ∀ z ∈ Z, a z = vz z)) * net'.P (fun a => decide (∀ z ∈ Z, a z = vz z)) ≠
            net'.P (fun a => decide (a x = vx ∧ ∀ z ∈ Z, a z = vz z)) * net'.P (fun a => decide (a y = vy ∧ ∀ z ∈ Z, a z = vz z)) := by
  constructor
  · intro h
    obtain ⟨rels, net', k1, k2, k3, k4, vx, vy, vz, p1, p2, p3⟩ := C83_dconnected_dependent hf hw hx hy hZ h
    refine ⟨rels, net', k1, k2, k3, k4, vx, vy, vz, ?_⟩
    rw [p1, zero_mul]
    exact ne_of_lt (mul_pos p2 p3)
  · rintro ⟨rels, net', k1, k2, k3, k4, vx, vy, vz, hne⟩
    have hg : net'.g = net.g := by show net'.m.g = net.m.g; rw [k2]
    obtain ⟨b, e1, e2⟩ := isDConnected_spec hw pick (t := y) hx hZ
    cases b with
    | true => exact e1
    | false =>
      exact absurd (C41_dsep_independent k3 k4 (pick := pick) (hg ▸ hx) (hg ▸ hy) (hg ▸ hZ) (by rw [hg]; exact e1) vx vy vz) hne

/-- the hypotheses are met by an actual graph: a collider with an observed descendant; unobserved, it separates -/
example : ∃ net : Net, net.Fresh ∧ net.g.WF ∧ "A" ∈ net.g.nodes ∧ "B" ∈ net.g.nodes ∧ ["E"] ⊆ net.g.nodes ∧ "A" ≠ "B" ∧
    isDConnected (fun _ _ => 0) net.g "A" "B" ["E"] = .ok true ∧ isDConnected (fun _ _ => 0) net.g "A" "B" [] = .ok false := by
  refine ⟨⟨⟨⟨["A", "C", "B", "E"], [("A", "C"), ("B", "C"), ("C", "E")]⟩, [], [], [], []⟩, [], [], [], Macid.new⟩, ⟨rfl, rfl, rfl⟩, ?_,
    by decide, by decide, by decide, by decide, by decide +kernel, by decide +kernel⟩
  exact wf_of_ofEdges (es := [("A", "C"), ("B", "C"), ("C", "E")]) (by decide +kernel)

end Verif

import Verif.Lemmas.Clever

/-!
# A game that a controlled node switches on
-/

namespace Verif

open Graph Relation Macid Net

namespace Plan

variable {P : Plan} {g : Graph} {d : Node}

/-- the node that opens the gate -/
def key (P : Plan) : Node := if P.h = 0 then P.w 0 else P.hop 0

/-- put a gate before the start of the trail -/
def gated (P : Plan) (k : Nat) (f : Nat → Node) : Plan := { P with h := k, hop := f }

theorem Placed.gated (h : P.Placed g d) {k : Nat} {f : Nat → Node} (hs : ∀ j < k, (CutGraph g [d]).Edge (f j) (f (j + 1))) (hk : f k = P.w 0)
    (h0 : f 0 ≠ d) : (P.gated k f).Placed g d :=
  ⟨⟨h.ok.step, h.ok.start, h.ok.fall, h.ok.land, h.ok.free⟩, ⟨hs, fun _ => hk, h.game.acts, h.game.pay, h.game.take⟩, h.off, h.act0, h.root, fun _ => h0⟩

theorem gated_key {k : Nat} {f : Nat → Node} (hk : f k = P.w 0) : (P.gated k f).key = f 0 := by
  unfold key gated
  by_cases e : k = 0
  · subst e; simp [hk]
  · simp [e]

/-- start where the collider at `p` lands -/
def switched (P : Plan) (p : Nat) : Plan where
  n := P.len p + (P.n - p)
  w j := if j ≤ P.len p then P.path p (P.len p - j) else P.w (p + (j - P.len p))
  fwd j := if j < P.len p then false else P.fwd (p + (j - P.len p))
  len j := P.len (p + (j - P.len p))
  path j := P.path (p + (j - P.len p))
  h := 0
  hop := P.hop
  m := P.m
  act := P.act
  u := P.u

theorem switched_col (P : Plan) {p : Nat} (hp : P.col p = true) {j : Nat} :
    (P.switched p).col j = true ↔ P.len p < j ∧ P.col (p + (j - P.len p)) = true := by
  simp only [col, Bool.and_eq_true, decide_eq_true_eq, Bool.not_eq_true'] at hp ⊢
  obtain ⟨⟨p0, pn⟩, pl, pr⟩ := hp
  simp only [switched]
  constructor
  · rintro ⟨⟨h0, hn⟩, hl, hr⟩
    by_cases hj : j - 1 < P.len p
    · rw [if_pos hj] at hl; simp at hl
    rw [if_neg hj] at hl
    rw [if_neg (by omega)] at hr
    refine ⟨by omega, ⟨by omega, by omega⟩, ?_, hr⟩
    rw [show p + (j - P.len p) - 1 = p + (j - 1 - P.len p) by omega]
    exact hl
  · rintro ⟨hj, ⟨h0, hn⟩, hl, hr⟩
    refine ⟨⟨by omega, by omega⟩, ?_, ?_⟩
    · rw [if_neg (by omega), show p + (j - 1 - P.len p) = p + (j - P.len p) - 1 by omega]
      exact hl
    · rw [if_neg (by omega)]; exact hr

theorem Placed.switched (h : P.Placed g d) (hac : g.Acyclic) {p : Nat} (hp : P.col p = true) (hclear : ∀ j < P.len p, ¬ g.Edge (P.path p j) d) :
    (P.switched p).Placed g d ∧ (P.switched p).w 0 = P.path p (P.len p) ∧ (P.switched p).n ≠ 0 ∧ (P.switched p).fwd 0 = false := by
  have hp' := hp
  simp only [col, Bool.and_eq_true, decide_eq_true_eq, Bool.not_eq_true'] at hp'
  obtain ⟨⟨p0, pn⟩, pl, pr⟩ := hp'
  have hreach : ∀ k j, j + k = P.len p → g.DescEq (P.path p j) (P.path p (P.len p)) := by
    intro k
    induction k with
    | zero => intro j hj; rw [show j = P.len p by omega]; exact ReflTransGen.refl
    | succ k ih => intro j hj; exact ReflTransGen.head (cut_edge.1 (h.ok.fall p hp j (by omega))).1 (ih (j + 1) (by omega))
  have hoff : ∀ j ≤ P.len p, P.path p j ≠ d := fun j hj e => by
    have := hreach (P.len p - j) j (by omega)
    rw [e] at this
    exact hac d (TransGen.tail' this (h.ok.land p hp))
  have hw0 : (P.switched p).w 0 = P.path p (P.len p) := by simp [Plan.switched]
  refine ⟨⟨⟨fun j hj => ?_, fun j hj => ?_, fun j hj => ?_, fun j hj => ?_, fun j h0 hj hc => ?_⟩, ⟨fun j hj => ?_, fun q => absurd rfl q, h.game.acts, h.game.pay, ?_⟩,
    fun j hj => ?_, h.act0, ?_, fun q => absurd rfl q⟩, hw0, ?_, ?_⟩
  · have hj' : j < P.len p + (P.n - p) := hj
    have hw : ∀ j, (P.switched p).w j = if j ≤ P.len p then P.path p (P.len p - j) else P.w (p + (j - P.len p)) := fun _ => rfl
    by_cases q : j < P.len p
    · have hf : (P.switched p).fwd j = false := by simp [Plan.switched, q]
      rw [if_neg (by rw [hf]; simp), hw, hw, if_pos (by omega), if_pos (by omega)]
      have := h.ok.fall p hp (P.len p - (j + 1)) (by omega)
      rwa [show P.len p - (j + 1) + 1 = P.len p - j by omega] at this
    · have hf : (P.switched p).fwd j = P.fwd (p + (j - P.len p)) := by simp [Plan.switched, q]
      have hs := h.ok.step (p + (j - P.len p)) (by omega)
      have e1 : (P.switched p).w j = P.w (p + (j - P.len p)) := by
        rw [hw]
        split
        · have : j = P.len p := by omega
          subst this
          simp [h.ok.start p hp]
        · rfl
      have e2 : (P.switched p).w (j + 1) = P.w (p + (j - P.len p) + 1) := by
        rw [hw, if_neg (by omega), show p + (j + 1 - P.len p) = p + (j - P.len p) + 1 by omega]
      rw [e1, e2]
      cases hb : P.fwd (p + (j - P.len p)) with
      | true => rw [hb] at hf hs; rw [if_pos hf]; simpa using hs
      | false => rw [hb] at hf hs; rw [if_neg (by rw [hf]; simp)]; simpa using hs
  · obtain ⟨q1, q2⟩ := (P.switched_col hp).1 hj
    simp only [Plan.switched]
    rw [if_neg (by omega)]
    exact h.ok.start _ q2
  · exact h.ok.fall _ ((P.switched_col hp).1 hj).2
  · exact h.ok.land _ ((P.switched_col hp).1 hj).2
  · simp only [Plan.switched] at hj ⊢
    by_cases q : j ≤ P.len p
    · rw [if_pos q]
      exact hclear _ (by omega)
    · rw [if_neg q]
      refine h.ok.free _ (by omega) (by omega) ?_
      cases hcc : P.col (p + (j - P.len p)) with
      | false => rfl
      | true => rw [(P.switched_col hp).2 ⟨by omega, hcc⟩] at hc; simp at hc
  · exact absurd hj (Nat.not_lt_zero _)
  · have := h.game.take
    simp only [Plan.switched]
    rw [if_neg (by omega), show p + (P.len p + (P.n - p) - P.len p) = P.n by omega]
    exact this
  · simp only [Plan.switched] at hj ⊢
    split
    · exact hoff _ (by omega)
    · exact h.off _ (by omega)
  · rw [hw0]; exact h.ok.land p hp
  · simp only [Plan.switched]; omega
  · simp only [Plan.switched]
    by_cases q : P.len p = 0
    · simp [q, pr]
    · simp [Nat.pos_of_ne_zero q]

theorem forward (h : P.Placed g d) {p : Nat} (hp : p ≤ P.n) (hf : ∀ j < p, P.fwd j = true) : ReflTransGen (CutGraph g [d]).Edge (P.w 0) (P.w p) := by
  induction p with
  | zero => exact ReflTransGen.refl
  | succ p ih =>
    have := h.ok.step p (by omega)
    rw [if_pos (hf p (by omega))] at this
    exact (ih (by omega) (fun j hj => hf j (by omega))).tail this

/-- A node above a requisite observation, and with no way to the utility except through the decision, gives a gated game. -/
theorem ofControl (hac : g.Acyclic) {x w u : Node} (hxd : x ≠ d) (hxw : ReflTransGen (CutGraph g [d]).Edge x w) (hw : g.Edge w d)
    (hdu : g.Desc d u) (hleaf : ∀ v, ¬ g.Edge u v) {Z : List Node} (hZ : ∀ z, z ∈ Z ↔ z ≠ w ∧ (z = d ∨ g.Edge z d)) (hD : g.DConn w u Z)
    (hno : ¬ ReflTransGen (CutGraph g [d]).Edge x u) :
    ∃ P : Plan, P.Placed g d ∧ P.u = u ∧ P.n ≠ 0 ∧ P.left 1 = false ∧ P.key = x := by
  classical
  obtain ⟨P, hP, h0, _, hu, hclear⟩ := Plan.ofRequisite hac hw hdu hleaf hZ hD
  have base : ∀ Q : Plan, Q.Placed g d → Q.u = u → Q.n ≠ 0 → Q.fwd 0 = false → ReflTransGen (CutGraph g [d]).Edge x (Q.w 0) →
      ∃ P : Plan, P.Placed g d ∧ P.u = u ∧ P.n ≠ 0 ∧ P.left 1 = false ∧ P.key = x := by
    intro Q hQ hu hn hf hr
    obtain ⟨k, f, f0, fk, fs⟩ := exists_walk hr
    exact ⟨Q.gated k f, hQ.gated fs fk (f0 ▸ hxd), hu, hn, by simp [left, Plan.gated, hf], by rw [gated_key fk, f0]⟩
  have hlast : ¬ ∀ j < P.n, P.fwd j = true := by
    intro hall
    apply hno
    have := (forward hP (le_refl _) hall).tail hP.game.take
    rw [h0, hu] at this
    exact hxw.trans this
  push Not at hlast
  have hex : ∃ j, j < P.n ∧ P.fwd j ≠ true := hlast
  obtain ⟨hpn, hpf⟩ := Nat.find_spec hex
  have hmin : ∀ j < Nat.find hex, P.fwd j = true := by
    intro j hj
    by_contra hc
    exact Nat.find_min hex hj ⟨by omega, hc⟩
  generalize Nat.find hex = p at hpn hpf hmin
  by_cases p0 : p = 0
  · subst p0
    exact base P hP hu (by omega) (by simpa using hpf) (by rw [h0]; exact hxw)
  · have hcol : P.col p = true := by
      simp only [col, Bool.and_eq_true, decide_eq_true_eq, Bool.not_eq_true']
      exact ⟨⟨p0, hpn⟩, hmin _ (by omega), by simpa using hpf⟩
    obtain ⟨q1, q2, q3, q4⟩ := hP.switched hac hcol (hclear p hcol)
    refine base _ q1 hu q3 q4 ?_
    rw [q2]
    refine hxw.trans ?_
    rw [← h0]
    refine (forward hP (by omega) hmin).trans ?_
    rw [← hP.ok.start p hcol]
    have : ∀ j ≤ P.len p, ReflTransGen (CutGraph g [d]).Edge (P.path p 0) (P.path p j) := by
      intro j
      induction j with
      | zero => intro _; exact ReflTransGen.refl
      | succ j ih => intro hj; exact (ih (by omega)).tail (hP.ok.fall p hcol j (by omega))
    exact this _ (le_refl _)

/-- the gate matters only at the node that opens it -/
theorem rule_op (P : Plan) (op op' : Bool) {i : Cell} (hi : i ∈ P.allCells) (hk : P.node i ≠ P.key) (β : Cell → Bool) : P.rule op i β = P.rule op' i β := by
  unfold key at hk
  cases i with
  | main p =>
    by_cases h0 : p = 0
    · subst h0
      by_cases hh : P.h = 0
      · rw [if_pos hh] at hk; exact absurd rfl hk
      · simp [rule, gateOpen, hh]
    · simp [rule, h0]
  | down p j => rfl
  | gate j =>
    by_cases h0 : j = 0
    · subst h0
      by_cases hh : P.h = 0
      · exfalso
        rcases mem_allCells.1 hi with q | q
        · rcases mem_trailCells.1 q with ⟨_, _, q⟩ | ⟨_, _, _, _, q⟩ <;> simp at q
        · rcases mem_gameCells.1 q with ⟨_, q1, q⟩ | ⟨_, _, q⟩ | q
          · omega
          · simp at q
          · simp at q
      · rw [if_neg hh] at hk; exact absurd rfl hk
    · simp [rule, h0]
  | guess j => rfl
  | win => rfl

theorem wires_op (P : Plan) (op op' : Bool) {v : Node} (hv : v ≠ P.key) {a : Assign} (h : (P.wires op).R v a) : (P.wires op').R v a := by
  refine ⟨h.1, fun i hi e => ?_⟩
  rcases h.2 i hi e with q | q
  · exact Or.inl q
  · right
    have e' : P.node i = v := e
    exact q.trans (P.rule_op op op' hi (e' ▸ hv) _)

end Plan
end Verif

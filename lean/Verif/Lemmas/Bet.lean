import Verif.Lemmas.Gate
import Verif.Lemmas.Rare

/-!
# A game in which the decision may bet

The start of a trail carries the signal only if a flag passed on from a controlled node is up.  The decision sees the flag.  It may
bet on the bit at the end of the trail, or not.
-/

namespace Verif

open Graph Relation Macid Net

/-- The cells: those of the trail, `flag j` on the way from the controlled node to the start of the trail, and the content and the
existence of a bet on the way from the decision to the utility. -/
inductive Pin where
  | sig (i : Cell)
  | flag (j : Nat)
  | guess (j : Nat)
  | bet (j : Nat)
  deriving DecidableEq

/-- the trail and the way to its start -/
structure Bet where
  P : Plan
  k : Nat
  f : Nat → Node

namespace Bet

def cells (T : Bet) : List Pin :=
  T.P.trailCells.map .sig ++ ((List.range (T.k + 1)).map .flag ++ ((List.range (T.P.m + 1)).map .guess ++ (List.range (T.P.m + 1)).map .bet))

def node (T : Bet) : Pin → Node
  | .sig i => T.P.node i
  | .flag j => T.f j
  | .guess j => T.P.act j
  | .bet j => T.P.act j

def coin (T : Bet) : Pin → Prop
  | .sig i => T.P.coin i
  | .flag j => j = 0
  | .guess j => j = 0
  | .bet j => j = 0

def rule (T : Bet) : Pin → (Pin → Bool) → Bool
  | .sig i, β => T.P.rule true i (fun i => β (.sig i)) && (decide (i ≠ .main 0) || β (.flag (T.k - 1)))
  | .flag j, β => β (.flag (j - 1))
  | .guess j, β => β (.guess (j - 1))
  | .bet j, β => β (.bet (j - 1))

def wires (T : Bet) : Wiring Pin := ⟨T.cells, T.node, T.coin, T.rule⟩

theorem mem_cells {T : Bet} {i : Pin} : i ∈ T.cells ↔
    (∃ c ∈ T.P.trailCells, i = .sig c) ∨ (∃ j ≤ T.k, i = .flag j) ∨ (∃ j ≤ T.P.m, i = .guess j) ∨ ∃ j ≤ T.P.m, i = .bet j := by
  unfold cells
  simp only [List.mem_append, List.mem_map, List.mem_range]
  constructor
  · rintro (⟨c, hc, rfl⟩ | ⟨j, hj, rfl⟩ | ⟨j, hj, rfl⟩ | ⟨j, hj, rfl⟩)
    · exact Or.inl ⟨c, hc, rfl⟩
    · exact Or.inr (Or.inl ⟨j, by omega, rfl⟩)
    · exact Or.inr (Or.inr (Or.inl ⟨j, by omega, rfl⟩))
    · exact Or.inr (Or.inr (Or.inr ⟨j, by omega, rfl⟩))
  · rintro (⟨c, hc, rfl⟩ | ⟨j, hj, rfl⟩ | ⟨j, hj, rfl⟩ | ⟨j, hj, rfl⟩)
    · exact Or.inl ⟨c, hc, rfl⟩
    · exact Or.inr (Or.inl ⟨j, by omega, rfl⟩)
    · exact Or.inr (Or.inr (Or.inl ⟨j, by omega, rfl⟩))
    · exact Or.inr (Or.inr (Or.inr ⟨j, by omega, rfl⟩))

theorem sig_mem {T : Bet} {c : Cell} (h : c ∈ T.P.trailCells) : Pin.sig c ∈ T.cells := mem_cells.2 (Or.inl ⟨c, h, rfl⟩)

theorem main_mem {T : Bet} {p : Nat} (h : p ≤ T.P.n) : Pin.sig (.main p) ∈ T.cells := sig_mem (Plan.mem_trailCells.2 (Or.inl ⟨p, h, rfl⟩))

theorem flag_mem {T : Bet} {j : Nat} (h : j ≤ T.k) : Pin.flag j ∈ T.cells := mem_cells.2 (Or.inr (Or.inl ⟨j, h, rfl⟩))

theorem guess_mem {T : Bet} {j : Nat} (h : j ≤ T.P.m) : Pin.guess j ∈ T.cells := mem_cells.2 (Or.inr (Or.inr (Or.inl ⟨j, h, rfl⟩)))

theorem bet_mem {T : Bet} {j : Nat} (h : j ≤ T.P.m) : Pin.bet j ∈ T.cells := mem_cells.2 (Or.inr (Or.inr (Or.inr ⟨j, h, rfl⟩)))

/-- everything is in place -/
structure Ok (T : Bet) (g : Graph) (d : Node) : Prop where
  placed : T.P.Placed g d
  gateless : T.P.h = 0
  clear : ∀ c, T.P.col c = true → ∀ j < T.P.len c, ¬ g.Edge (T.P.path c j) d
  long : T.P.n ≠ 0
  back : T.P.fwd 0 = false
  walk : ∀ j < T.k, (CutGraph g [d]).Edge (T.f j) (T.f (j + 1))
  arrive : T.f T.k = T.P.w 0
  start : T.f 0 ≠ d
  acyc : g.Acyclic
  leaf : ∀ v, ¬ g.Edge T.P.u v

variable {T : Bet} {g : Graph} {d : Node}

theorem trail_ne {P : Plan} {c : Cell} (hc : c ∈ P.trailCells) : (∀ j, c ≠ .guess j) ∧ c ≠ .win := by
  rcases Plan.mem_trailCells.1 hc with ⟨_, _, rfl⟩ | ⟨_, _, _, _, rfl⟩ <;> simp

theorem Ok.child (h : T.Ok g d) {i : Pin} (hi : i ∈ T.cells) : ∃ v, g.Edge (T.node i) v := by
  rcases mem_cells.1 hi with ⟨c, hc, rfl⟩ | ⟨j, hj, rfl⟩ | ⟨j, hj, rfl⟩ | ⟨j, hj, rfl⟩
  · exact (h.placed.child (Plan.mem_allCells.2 (Or.inl hc))).resolve_left (trail_ne hc).2
  · by_cases e : j = T.k
    · subst e; exact ⟨d, by show g.Edge (T.f T.k) d; rw [h.arrive]; exact h.placed.root⟩
    · exact ⟨_, (cut_edge.1 (h.walk j (by omega))).1⟩
  · exact (h.placed.child (Plan.guess_mem hj)).resolve_left (by simp)
  · exact (h.placed.child (Plan.guess_mem hj)).resolve_left (by simp)

theorem Ok.node_ne (h : T.Ok g d) {i : Pin} (hi : i ∈ T.cells) : T.node i ≠ T.P.u := by
  obtain ⟨v, hv⟩ := h.child hi
  intro e
  exact h.leaf v (e ▸ hv)

theorem Ok.atD (h : T.Ok g d) {i : Pin} (hi : i ∈ T.cells) : T.node i = d ↔ i = .guess 0 ∨ i = .bet 0 := by
  rcases mem_cells.1 hi with ⟨c, hc, rfl⟩ | ⟨j, hj, rfl⟩ | ⟨j, hj, rfl⟩ | ⟨j, hj, rfl⟩
  · have := h.placed.atD (Plan.mem_allCells.2 (Or.inl hc))
    have h2 := (trail_ne hc).1 0
    show T.P.node c = d ↔ _
    rw [this]
    simp [h2]
  · have : T.f j ≠ d := by
      by_cases h0 : j = 0
      · subst h0; exact h.start
      · have := (cut_edge.1 (h.walk (j - 1) (by omega))).2
        rwa [show j - 1 + 1 = j by omega] at this
    show T.f j = d ↔ _
    simp [this]
  · have := h.placed.atD (Plan.guess_mem hj)
    show T.P.act j = d ↔ _
    have e : T.P.node (.guess j) = T.P.act j := rfl
    rw [← e, this]; simp
  · have := h.placed.atD (Plan.guess_mem hj)
    show T.P.act j = d ↔ _
    have e : T.P.node (.guess j) = T.P.act j := rfl
    rw [← e, this]; simp

theorem Ok.nodes (h : T.Ok g d) (hw : ∀ u v, g.Edge u v → u ∈ g.nodes ∧ v ∈ g.nodes) {i : Pin} (hi : i ∈ T.cells) : T.node i ∈ g.nodes := by
  obtain ⟨v, hv⟩ := h.child hi
  exact (hw _ _ hv).1

theorem Ok.local (h : T.Ok g d) : T.wires.Local g := by
  refine Wiring.Local.mono (g := CutGraph g [d]) ⟨fun i hi hc β β' hβ => ?_⟩ (fun u v e => (cut_edge.1 e).1)
  rcases mem_cells.1 hi with ⟨c, hcc, rfl⟩ | ⟨j, hj, rfl⟩ | ⟨j, hj, rfl⟩ | ⟨j, hj, rfl⟩
  · show (T.P.rule true c _ && _) = (T.P.rule true c _ && _)
    rw [Plan.loc_trail h.placed.ok (fun _ q => q) (fun q => absurd h.gateless q) hcc (β := fun i => β (.sig i)) (β' := fun i => β' (.sig i))
      (fun j hj e => hβ (.sig j) (sig_mem hj) (Or.inl e))]
    by_cases e : c = .main 0
    · subst e
      rw [hβ (.flag (T.k - 1)) (flag_mem (by omega)) ?_]
      by_cases hk : T.k = 0
      · right
        refine ⟨?_, ?_⟩
        · show T.f (T.k - 1) = T.P.w 0
          rw [← h.arrive]; congr 1; omega
        · show T.k - 1 = 0
          omega
      · left
        have := h.walk (T.k - 1) (by omega)
        rwa [show T.k - 1 + 1 = T.k by omega, h.arrive] at this
    · simp [e]
  · have h0 : j ≠ 0 := hc
    refine hβ (.flag (j - 1)) (flag_mem (by omega)) (Or.inl ?_)
    have := h.walk (j - 1) (by omega)
    rwa [show j - 1 + 1 = j by omega] at this
  · have h0 : j ≠ 0 := hc
    refine hβ (.guess (j - 1)) (guess_mem (by omega)) (Or.inl ?_)
    have := h.placed.game.acts (j - 1) (by omega)
    rwa [show j - 1 + 1 = j by omega] at this
  · have h0 : j ≠ 0 := hc
    refine hβ (.bet (j - 1)) (bet_mem (by omega)) (Or.inl ?_)
    have := h.placed.game.acts (j - 1) (by omega)
    rwa [show j - 1 + 1 = j by omega] at this

/-! ## Worlds -/

/-- sum of given bits of the colliders up to `p` -/
def tot (P : Plan) (γ : Nat → Bool) : Nat → Bool
  | 0 => false
  | p + 1 => tot P γ p ^^ (P.col (p + 1) && γ (p + 1))

/-- `γ`: bits of the colliders; `fl`: the flag; `s`: the signal at the start of the trail; `b`, `e`: the bet -/
def world (T : Bet) (γ : Nat → Bool) (fl s b e : Bool) : Pin → Bool
  | .sig (.main p) => if T.P.col p then γ p else (s ^^ tot T.P γ p) && (decide (p ≠ 0) || fl)
  | .sig (.down p _) => γ p
  | .sig _ => false
  | .flag _ => fl
  | .guess _ => b
  | .bet _ => e

theorem Ok.world_rule (h : T.Ok g d) (γ : Nat → Bool) (fl s b e : Bool) {i : Pin} (hi : i ∈ T.cells) :
    T.coin i ∨ T.world γ fl s b e i = T.rule i (T.world γ fl s b e) := by
  rcases mem_cells.1 hi with ⟨c, hcc, rfl⟩ | ⟨j, hj, rfl⟩ | ⟨j, hj, rfl⟩ | ⟨j, hj, rfl⟩
  · rcases Plan.mem_trailCells.1 hcc with ⟨p, hp, rfl⟩ | ⟨p, j, hcol, hj, rfl⟩
    · by_cases hc : T.P.left p = false ∧ T.P.right p = false
      · exact Or.inl hc
      right
      have hg : ∀ β, T.P.gateOpen true β = true := fun β => by unfold Plan.gateOpen; simp [h.gateless]
      have hl1 : T.P.left 1 = false := by simp [Plan.left, h.back]
      have hL : T.P.left p = true → T.P.col (p - 1) = false ∧ p ≠ 0 ∧ p - 1 ≠ 0 := by
        intro q
        have q' := q
        simp only [Plan.left, Bool.and_eq_true, decide_eq_true_eq] at q
        refine ⟨by simp [Plan.col, q.2], q.1, fun e => ?_⟩
        rw [show p = 1 by omega, hl1] at q'
        simp at q'
      have hR : T.P.right p = true → T.P.col (p + 1) = false := by
        intro q
        simp only [Plan.right, Bool.and_eq_true, Bool.not_eq_true'] at q
        simp [Plan.col, q.2]
      have hmain : ∀ q, T.world γ fl s b e (.sig (.main q)) = if T.P.col q then γ q else (s ^^ tot T.P γ q) && (decide (q ≠ 0) || fl) := fun _ => rfl
      have hrule : T.rule (.sig (.main p)) (T.world γ fl s b e) = (((T.P.left p && T.world γ fl s b e (.sig (.main (p - 1)))) ^^
          (T.P.right p && T.world γ fl s b e (.sig (.main (p + 1))))) && (decide (p ≠ 0) || fl)) := by
        show (((_ ^^ _) && (decide (p ≠ 0) || T.P.gateOpen true _)) && (decide (Cell.main p ≠ .main 0) || fl)) = _
        rw [hg]
        simp
      rw [hrule, hmain, hmain, hmain, T.P.col_eq p]
      have htot : tot T.P γ (p + 1) = (tot T.P γ p ^^ (T.P.col (p + 1) && γ (p + 1))) := rfl
      cases hl : T.P.left p <;> cases hr : T.P.right p
      · exact absurd ⟨hl, hr⟩ hc
      · simp [hR hr, htot]
      · obtain ⟨q1, q2, q3⟩ := hL hl
        have hcp : T.P.col p = false := by rw [T.P.col_eq, hl, hr]; rfl
        have : tot T.P γ p = tot T.P γ (p - 1) := by
          obtain ⟨r, rfl⟩ := Nat.exists_eq_succ_of_ne_zero q2
          simp only [Nat.succ_eq_add_one, Nat.add_sub_cancel]
          show (_ ^^ _) = _
          rw [hcp]; simp
        simp [q1, q2, q3, this]
      · obtain ⟨q1, q2, q3⟩ := hL hl
        have hcp : T.P.col p = true := by rw [T.P.col_eq, hl, hr]; rfl
        have : tot T.P γ p = (tot T.P γ (p - 1) ^^ γ p) := by
          obtain ⟨r, rfl⟩ := Nat.exists_eq_succ_of_ne_zero q2
          simp only [Nat.succ_eq_add_one, Nat.add_sub_cancel]
          show (_ ^^ _) = _
          rw [hcp]; simp
        rw [htot, hR hr, q1, this, decide_eq_true q2, decide_eq_true q3, decide_eq_true (Nat.succ_ne_zero p)]
        cases s <;> cases tot T.P γ (p - 1) <;> cases γ p <;> rfl
    · right
      show γ p = ((if j = 0 then T.world γ fl s b e (.sig (.main p)) else T.world γ fl s b e (.sig (.down p (j - 1)))) && (decide (Cell.down p j ≠ .main 0) || fl))
      have hm : T.world γ fl s b e (.sig (.main p)) = γ p := by show (if T.P.col p then γ p else _) = γ p; rw [if_pos hcol]
      have hdn : T.world γ fl s b e (.sig (.down p (j - 1))) = γ p := rfl
      rw [hm, hdn]
      simp
  · exact Or.inr rfl
  · exact Or.inr rfl
  · exact Or.inr rfl

/-- With the flag down, what the decision sees is told by the bits where the colliders land. -/
theorem Ok.context (h : T.Ok g d) {a : Assign} (hfl : ∀ j ≤ T.k, T.wires.read a (.flag j) = false) (h0 : T.wires.read a (.sig (.main 0)) = false)
    (s b e : Bool) {v : Node} (hv : g.Edge v d) (hav : a v = T.wires.enc (T.wires.here v (T.wires.read a))) :
    a v = T.wires.assign (T.world (fun p => T.wires.read a (.sig (T.P.landing p))) false s b e) v := by
  rw [hav]
  unfold Wiring.assign
  refine Wiring.here_congr (fun i hi hn => ?_)
  rcases mem_cells.1 hi with ⟨c, hcc, rfl⟩ | ⟨j, hj, rfl⟩ | ⟨j, hj, rfl⟩ | ⟨j, hj, rfl⟩
  · rcases Plan.mem_trailCells.1 hcc with ⟨p, hp, rfl⟩ | ⟨p, j, hcol, hj, rfl⟩
    · have hw : T.P.w p = v := hn
      show _ = if T.P.col p then _ else _
      cases hc : T.P.col p with
      | false =>
        by_cases hp0 : p = 0
        · subst hp0
          rw [h0]; simp
        · exact absurd (hw ▸ hv) (h.placed.ok.free p hp0 hp hc)
      | true =>
        have hl : T.P.len p = 0 := by
          by_contra hl
          refine h.clear p hc 0 (by omega) ?_
          rw [h.placed.ok.start p hc, hw]; exact hv
        have : T.P.landing p = .main p := by unfold Plan.landing; rw [if_pos hl]
        simp only [if_true]
        rw [this]
    · have hw : T.P.path p (j + 1) = v := hn
      show _ = T.wires.read a (.sig (T.P.landing p))
      have hl : j + 1 = T.P.len p := by
        by_contra hl
        refine h.clear p hcol (j + 1) (by omega) ?_
        rw [hw]; exact hv
      have : T.P.landing p = .down p j := by
        unfold Plan.landing
        rw [if_neg (by omega), ← hl]; rfl
      rw [this]
  · exact hfl j hj
  · exact absurd rfl ((h.placed.plain h.acyc hv (Plan.guess_mem hj) hn).1 j)
  · exact absurd rfl ((h.placed.plain h.acyc hv (Plan.guess_mem hj) hn).1 j)

end Bet
end Verif

import Verif.Lemmas.Wiring

/-!
# Sending a bit along a trail

A bit is passed along a trail; at each collider the two incoming bits are added, and the sum is passed down to an observed node.
-/

namespace Verif

open Graph Relation Macid

/-- The cells: `main p` at position `p` of the trail; `down p j` at step `j + 1` of the way down from position `p`;
`gate j` on the way from a controlled node to the start of the trail; `guess j` on the way from a decision to a utility;
`win` at that utility. -/
inductive Cell where
  | main (p : Nat)
  | down (p j : Nat)
  | gate (j : Nat)
  | guess (j : Nat)
  | win
  deriving DecidableEq

/-- where everything is -/
structure Plan where
  n : Nat
  w : Nat → Node
  fwd : Nat → Bool
  len : Nat → Nat
  path : Nat → Nat → Node
  h : Nat
  hop : Nat → Node
  m : Nat
  act : Nat → Node
  u : Node

namespace Plan

/-- a collider of the trail -/
def col (P : Plan) (p : Nat) : Bool := decide (p ≠ 0 ∧ p < P.n) && (P.fwd (p - 1) && !P.fwd p)

/-- an edge of the trail comes from the left -/
def left (P : Plan) (p : Nat) : Bool := decide (p ≠ 0) && P.fwd (p - 1)

/-- an edge of the trail comes from the right -/
def right (P : Plan) (p : Nat) : Bool := decide (p < P.n) && !P.fwd p

theorem col_eq (P : Plan) (p : Nat) : P.col p = (P.left p && P.right p) := by
  unfold col left right
  by_cases h1 : p = 0 <;> by_cases h2 : p < P.n <;> simp [h1, h2]

def node (P : Plan) : Cell → Node
  | .main p => P.w p
  | .down p j => P.path p (j + 1)
  | .gate j => P.hop j
  | .guess j => P.act j
  | .win => P.u

/-- is the gate open? -/
def gateOpen (P : Plan) (op : Bool) (β : Cell → Bool) : Bool := if P.h = 0 then op else β (.gate (P.h - 1))

/-- sum of what comes in along the trail -/
def sum (P : Plan) (p : Nat) (β : Cell → Bool) : Bool :=
  (P.left p && β (.main (p - 1))) ^^ (P.right p && β (.main (p + 1)))

def rule (P : Plan) (op : Bool) : Cell → (Cell → Bool) → Bool
  | .main p, β => P.sum p β && (decide (p ≠ 0) || P.gateOpen op β)
  | .down p j, β => if j = 0 then β (.main p) else β (.down p (j - 1))
  | .gate j, β => if j = 0 then op else β (.gate (j - 1))
  | .guess j, β => β (.guess (j - 1))
  | .win, β => β (.main P.n) == β (.guess P.m)

def coin (P : Plan) : Cell → Prop
  | .main p => P.left p = false ∧ P.right p = false
  | .guess j => j = 0
  | _ => False

/-- cells of the trail -/
def trailCells (P : Plan) : List Cell :=
  (List.range (P.n + 1)).map .main ++ (List.range (P.n + 1)).flatMap (fun p => if P.col p then (List.range (P.len p)).map (Cell.down p) else [])

/-- cells of the gate, the guess and the prize -/
def gameCells (P : Plan) : List Cell :=
  (List.range P.h).map .gate ++ ((List.range (P.m + 1)).map .guess ++ [.win])

def wiring (P : Plan) (cells : List Cell) (op : Bool) : Wiring Cell := ⟨cells, P.node, P.coin, P.rule op⟩

/-- The trail is one of `g`; `Obs` are the observed nodes. -/
structure Ok (P : Plan) (g : Graph) (Obs : Node → Prop) : Prop where
  step : ∀ p < P.n, if P.fwd p = true then g.Edge (P.w p) (P.w (p + 1)) else g.Edge (P.w (p + 1)) (P.w p)
  start : ∀ p, P.col p = true → P.path p 0 = P.w p
  fall : ∀ p, P.col p = true → ∀ j < P.len p, g.Edge (P.path p j) (P.path p (j + 1))
  land : ∀ p, P.col p = true → Obs (P.path p (P.len p))
  free : ∀ p, p ≠ 0 → p ≤ P.n → P.col p = false → ¬ Obs (P.w p)

/-- The gate, the guess and the prize. -/
structure Game (P : Plan) (g : Graph) : Prop where
  hops : ∀ j < P.h, g.Edge (P.hop j) (P.hop (j + 1))
  arrive : P.h ≠ 0 → P.hop P.h = P.w 0
  acts : ∀ j < P.m, g.Edge (P.act j) (P.act (j + 1))
  pay : g.Edge (P.act P.m) P.u
  take : g.Edge (P.w P.n) P.u

theorem mem_trailCells {P : Plan} {i : Cell} : i ∈ P.trailCells ↔
    (∃ p ≤ P.n, i = .main p) ∨ ∃ p j, P.col p = true ∧ j < P.len p ∧ i = .down p j := by
  unfold trailCells
  simp only [List.mem_append, List.mem_map, List.mem_range, List.mem_flatMap]
  constructor
  · rintro (⟨p, hp, rfl⟩ | ⟨p, hp, hi⟩)
    · exact Or.inl ⟨p, by omega, rfl⟩
    · right
      split at hi
      · rename_i hc
        obtain ⟨j, hj, rfl⟩ := List.mem_map.1 hi
        exact ⟨p, j, hc, List.mem_range.1 hj, rfl⟩
      · simp at hi
  · rintro (⟨p, hp, rfl⟩ | ⟨p, j, hc, hj, rfl⟩)
    · exact Or.inl ⟨p, by omega, rfl⟩
    · refine Or.inr ⟨p, ?_, ?_⟩
      · simp only [col, Bool.and_eq_true, decide_eq_true_eq] at hc
        omega
      · rw [if_pos hc]
        exact List.mem_map.2 ⟨j, List.mem_range.2 hj, rfl⟩

theorem mem_gameCells {P : Plan} {i : Cell} : i ∈ P.gameCells ↔
    (∃ j < P.h, i = .gate j) ∨ (∃ j ≤ P.m, i = .guess j) ∨ i = .win := by
  unfold gameCells
  simp only [List.mem_append, List.mem_map, List.mem_range, List.mem_singleton]
  constructor
  · rintro (⟨j, hj, rfl⟩ | ⟨j, hj, rfl⟩ | rfl)
    · exact Or.inl ⟨j, hj, rfl⟩
    · exact Or.inr (Or.inl ⟨j, by omega, rfl⟩)
    · exact Or.inr (Or.inr rfl)
  · rintro (⟨j, hj, rfl⟩ | ⟨j, hj, rfl⟩ | rfl)
    · exact Or.inl ⟨j, hj, rfl⟩
    · exact Or.inr (Or.inl ⟨j, by omega, rfl⟩)
    · exact Or.inr (Or.inr rfl)

theorem left_edge {P : Plan} {g : Graph} {Obs : Node → Prop} (hP : P.Ok g Obs) {p : Nat} (hp : p ≤ P.n) (h : P.left p = true) :
    g.Edge (P.w (p - 1)) (P.w p) := by
  simp only [left, Bool.and_eq_true, decide_eq_true_eq] at h
  have := hP.step (p - 1) (by omega)
  rw [if_pos h.2] at this
  rwa [show p - 1 + 1 = p from by omega] at this

theorem right_edge {P : Plan} {g : Graph} {Obs : Node → Prop} (hP : P.Ok g Obs) {p : Nat} (h : P.right p = true) :
    g.Edge (P.w (p + 1)) (P.w p) := by
  simp only [right, Bool.and_eq_true, decide_eq_true_eq, Bool.not_eq_true'] at h
  have := hP.step p h.1
  rwa [if_neg (by rw [h.2]; simp)] at this

/-- rules of the trail's cells, read with a set of cells that contains the trail -/
theorem loc_trail {P : Plan} {g : Graph} {Obs : Node → Prop} (hP : P.Ok g Obs) {cells : List Cell} (hc : P.trailCells ⊆ cells)
    {op : Bool} (hh : P.h ≠ 0 → Cell.gate (P.h - 1) ∈ cells ∧ g.Edge (P.hop (P.h - 1)) (P.w 0)) {i : Cell} (hi : i ∈ P.trailCells) {β β' : Cell → Bool}
    (hβ : ∀ j ∈ cells, g.Edge (P.node j) (P.node i) → β j = β' j) : P.rule op i β = P.rule op i β' := by
  rcases mem_trailCells.1 hi with ⟨p, hp, rfl⟩ | ⟨p, j, hcol, hj, rfl⟩
  · have e1 : (P.left p && β (.main (p - 1))) = (P.left p && β' (.main (p - 1))) := by
      cases hl : P.left p with
      | false => rfl
      | true =>
        rw [hβ (.main (p - 1)) (hc (mem_trailCells.2 (Or.inl ⟨p - 1, by omega, rfl⟩))) (left_edge hP hp hl)]
    have e2 : (P.right p && β (.main (p + 1))) = (P.right p && β' (.main (p + 1))) := by
      cases hr : P.right p with
      | false => rfl
      | true =>
        have : p < P.n := by simp only [right, Bool.and_eq_true, decide_eq_true_eq] at hr; exact hr.1
        rw [hβ (.main (p + 1)) (hc (mem_trailCells.2 (Or.inl ⟨p + 1, by omega, rfl⟩))) (right_edge hP hr)]
    have e3 : (decide (p ≠ 0) || P.gateOpen op β) = (decide (p ≠ 0) || P.gateOpen op β') := by
      by_cases h0 : p = 0
      · subst h0
        unfold gateOpen
        by_cases hz : P.h = 0
        · simp [hz]
        · simp only [hz, if_false]
          rw [hβ _ (hh hz).1 (hh hz).2]
      · simp [h0]
    simp only [rule, sum, e1, e2, e3]
  · simp only [rule]
    by_cases h0 : j = 0
    · subst h0
      simp only [if_true]
      refine hβ _ (hc (mem_trailCells.2 (Or.inl ⟨p, ?_, rfl⟩))) ?_
      · simp only [col, Bool.and_eq_true, decide_eq_true_eq] at hcol; omega
      · show g.Edge (P.w p) (P.path p (0 + 1))
        rw [← hP.start p hcol]
        exact hP.fall p hcol 0 hj
    · simp only [h0, if_false]
      refine hβ _ (hc (mem_trailCells.2 (Or.inr ⟨p, j - 1, hcol, by omega, rfl⟩))) ?_
      show g.Edge (P.path p (j - 1 + 1)) (P.path p (j + 1))
      rw [show j - 1 + 1 = j from by omega]
      exact hP.fall p hcol j hj

theorem local_trail {P : Plan} {g : Graph} {Obs : Node → Prop} (hP : P.Ok g Obs) (hh : P.h = 0) (op : Bool) :
    (P.wiring P.trailCells op).Local g :=
  ⟨fun _ hi _ _ _ hβ => loc_trail hP (fun _ h => h) (fun h => absurd hh h) hi (fun j hj e => hβ j hj (Or.inl e))⟩

theorem local_game {P : Plan} {g : Graph} {Obs : Node → Prop} (hP : P.Ok g Obs) (hG : P.Game g) (op : Bool) :
    (P.wiring (P.trailCells ++ P.gameCells) op).Local g := by
  refine ⟨fun i hi hc β β' hβ' => ?_⟩
  have hβ : ∀ j ∈ P.trailCells ++ P.gameCells, g.Edge (P.node j) (P.node i) → β j = β' j := fun j hj e => hβ' j hj (Or.inl e)
  have hn : P.h ≠ 0 → Cell.gate (P.h - 1) ∈ P.trailCells ++ P.gameCells ∧ g.Edge (P.hop (P.h - 1)) (P.w 0) := by
    intro h
    refine ⟨List.mem_append.2 (Or.inr (mem_gameCells.2 (Or.inl ⟨_, by omega, rfl⟩))), ?_⟩
    have := hG.hops (P.h - 1) (by omega)
    rwa [show P.h - 1 + 1 = P.h from by omega, hG.arrive h] at this
  rcases List.mem_append.1 hi with h | h
  · exact loc_trail hP (fun _ h => List.mem_append.2 (Or.inl h)) hn h hβ
  · rcases mem_gameCells.1 h with ⟨j, hj, rfl⟩ | ⟨j, hj, rfl⟩ | rfl
    · show P.rule op (.gate j) β = P.rule op (.gate j) β'
      simp only [rule]
      by_cases h0 : j = 0
      · simp [h0]
      · simp only [h0, if_false]
        refine hβ _ (List.mem_append.2 (Or.inr (mem_gameCells.2 (Or.inl ⟨_, by omega, rfl⟩)))) ?_
        show g.Edge (P.hop (j - 1)) (P.hop j)
        have := hG.hops (j - 1) (by omega)
        rwa [show j - 1 + 1 = j from by omega] at this
    · have h0 : j ≠ 0 := hc
      refine hβ _ (List.mem_append.2 (Or.inr (mem_gameCells.2 (Or.inr (Or.inl ⟨j - 1, by omega, rfl⟩))))) ?_
      show g.Edge (P.act (j - 1)) (P.act j)
      have := hG.acts (j - 1) (by omega)
      rwa [show j - 1 + 1 = j from by omega] at this
    · show P.rule op .win β = P.rule op .win β'
      simp only [rule]
      rw [hβ (.main P.n) (List.mem_append.2 (Or.inl (mem_trailCells.2 (Or.inl ⟨_, le_refl _, rfl⟩)))) hG.take,
        hβ (.guess P.m) (List.mem_append.2 (Or.inr (mem_gameCells.2 (Or.inr (Or.inl ⟨_, le_refl _, rfl⟩))))) hG.pay]

/-! ## Two worlds -/

/-- `s`: the signal; `b`: the guess -/
def world (P : Plan) (op s b : Bool) : Cell → Bool
  | .main p => s && !P.col p && (decide (p ≠ 0) || op)
  | .down _ _ => false
  | .gate _ => op
  | .guess _ => b
  | .win => (s && (decide (P.n ≠ 0) || op)) == b

theorem not_col_end (P : Plan) : P.col P.n = false := by simp [col]

theorem not_col_zero (P : Plan) : P.col 0 = false := by simp [col]

theorem world_rule (P : Plan) {op : Bool} (hop : op = true ∨ P.left 1 = false) (s b : Bool) {i : Cell} (hd : ∀ p j, i = .down p j → P.col p = true) :
    P.coin i ∨ P.world op s b i = P.rule op i (P.world op s b) := by
  cases i with
  | main p =>
    by_cases hc : P.left p = false ∧ P.right p = false
    · exact Or.inl hc
    right
    have hg : P.gateOpen op (P.world op s b) = op := by
      unfold gateOpen
      split <;> rfl
    simp only [rule, world, sum, hg]
    have hL : P.left p = true → P.col (p - 1) = false := by
      intro h
      simp only [left, Bool.and_eq_true] at h
      simp [col, h.2]
    have hR : P.right p = true → P.col (p + 1) = false := by
      intro h
      simp only [right, Bool.and_eq_true, Bool.not_eq_true'] at h
      simp [col, h.2]
    have hL0 : P.left p = true → p ≠ 0 := by
      intro h
      simp only [left, Bool.and_eq_true, decide_eq_true_eq] at h
      exact h.1
    have hL1 : P.left p = true → (decide (p - 1 ≠ 0) || op) = true := by
      intro h
      rcases hop with rfl | h1
      · simp
      · have : p - 1 ≠ 0 := by
          intro e
          have := hL0 h
          rw [show p = 1 by omega, h1] at h
          simp at h
        simp [this]
    rw [col_eq P p]
    cases hl : P.left p <;> cases hr : P.right p
    · exact absurd ⟨hl, hr⟩ hc
    · simp [hR hr]
    · have := hL0 hl
      rw [hL1 hl]
      simp [hL hl, this]
    · rw [hL1 hl]
      simp [hL hl, hR hr]
  | down p j =>
    right
    have := hd p j rfl
    simp only [rule, world]
    split
    · simp [this]
    · rfl
  | gate j =>
    right
    simp only [rule, world]
    split <;> rfl
  | guess j => right; rfl
  | win =>
    right
    simp only [rule, world, not_col_end]
    simp

theorem world_solves {P : Plan} {op : Bool} (hop : op = true ∨ P.left 1 = false) (s b : Bool) {cells : List Cell}
    (hd : ∀ p j, Cell.down p j ∈ cells → P.col p = true) : (P.wiring cells op).Solves (P.world op s b) := by
  intro i hi
  exact P.world_rule hop s b (fun p j e => hd p j (e ▸ hi))

/-! ## What arrives -/

/-- the cell where the bit of the collider `p` lands -/
def landing (P : Plan) (p : Nat) : Cell := if P.len p = 0 then .main p else .down p (P.len p - 1)

theorem landing_node {P : Plan} {g : Graph} {Obs : Node → Prop} (hP : P.Ok g Obs) {p : Nat} (hp : P.col p = true) :
    P.node (P.landing p) = P.path p (P.len p) := by
  unfold landing
  split
  · rename_i h; rw [h, hP.start p hp]; rfl
  · show P.path p (P.len p - 1 + 1) = _
    congr 1; omega

theorem landing_mem {P : Plan} {p : Nat} (hp : P.col p = true) : P.landing p ∈ P.trailCells := by
  unfold landing
  have : p ≤ P.n := by simp only [col, Bool.and_eq_true, decide_eq_true_eq] at hp; omega
  split
  · exact mem_trailCells.2 (Or.inl ⟨p, this, rfl⟩)
  · exact mem_trailCells.2 (Or.inr ⟨p, _, hp, by omega, rfl⟩)

/-- `β` obeys the rules of the trail -/
def Runs (P : Plan) (op : Bool) (β : Cell → Bool) : Prop := ∀ i ∈ P.trailCells, P.coin i ∨ β i = P.rule op i β

theorem landing_eq {P : Plan} {op : Bool} {β : Cell → Bool} (h : P.Runs op β) {p : Nat} (hp : P.col p = true) :
    β (P.landing p) = β (.main p) := by
  have key : ∀ j < P.len p, β (.down p j) = β (.main p) := by
    intro j
    induction j with
    | zero =>
      intro hj
      rcases h (.down p 0) (mem_trailCells.2 (Or.inr ⟨p, 0, hp, hj, rfl⟩)) with q | q
      · exact absurd q (by simp [coin])
      · simpa [rule] using q
    | succ j ih =>
      intro hj
      rcases h (.down p (j + 1)) (mem_trailCells.2 (Or.inr ⟨p, j + 1, hp, hj, rfl⟩)) with q | q
      · exact absurd q (by simp [coin])
      · simp only [rule, Nat.add_one_ne_zero, if_false, Nat.add_sub_cancel] at q
        rw [q, ih (by omega)]
  unfold landing
  split
  · rfl
  · exact key _ (by omega)

/-- sum of the bits of the colliders up to `p` -/
def total (P : Plan) (β : Cell → Bool) : Nat → Bool
  | 0 => false
  | p + 1 => P.total β p ^^ (P.col (p + 1) && β (.main (p + 1)))

theorem main_eq {P : Plan} {op : Bool} {β : Cell → Bool} (h : P.Runs op β) (hg : P.gateOpen op β = true) {p : Nat} (hp : p ≤ P.n)
    (hc : ¬ (P.left p = false ∧ P.right p = false)) : β (.main p) = P.sum p β := by
  rcases h (.main p) (mem_trailCells.2 (Or.inl ⟨p, hp, rfl⟩)) with q | q
  · exact absurd q hc
  · rw [q]; simp [rule, hg]

theorem signal {P : Plan} {op : Bool} {β : Cell → Bool} (h : P.Runs op β) (hg : P.gateOpen op β = true) :
    β (.main P.n) = (β (.main 0) ^^ P.total β P.n) := by
  have key : ∀ p < P.n, (if P.fwd p = true then β (.main p) else β (.main (p + 1))) = (β (.main 0) ^^ P.total β p) := by
    intro p
    induction p with
    | zero =>
      intro hp
      simp only [total, Bool.xor_false]
      split
      · rfl
      · rename_i hf
        have hr : P.right 0 = true := by simp [right, hp, hf]
        have := main_eq h hg (p := 0) (by omega) (by simp [hr])
        rw [this]
        simp [sum, hr, left]
    | succ p ih =>
      intro hp
      have e := ih (by omega)
      have hl : P.left (p + 1) = P.fwd p := by simp [left]
      have hr : P.right (p + 1) = !P.fwd (p + 1) := by simp [right, hp]
      simp only [total]
      rw [← Bool.xor_assoc, ← e, col_eq, hl, hr]
      have hm := main_eq h hg (p := p + 1) (by omega)
      rw [hl, hr] at hm
      simp only [sum, hl, hr, Nat.add_sub_cancel] at hm
      cases hf : P.fwd p <;> cases hf' : P.fwd (p + 1)
      · simp [hf, hf'] at hm ⊢
        exact hm.symm
      · simp
      · simp [hf, hf'] at hm ⊢
        rw [hm]
        cases β (.main p) <;> cases β (.main (p + 1 + 1)) <;> rfl
      · simp [hf, hf'] at hm ⊢
        exact hm
  by_cases h0 : P.n = 0
  · rw [h0]; simp [total]
  · obtain ⟨k, hk⟩ := Nat.exists_eq_succ_of_ne_zero h0
    have e := key k (by omega)
    have ht : P.total β P.n = P.total β k := by
      rw [hk]
      have : P.col (k + 1) = false := by rw [show k + 1 = P.n by omega]; exact P.not_col_end
      simp [total, this]
    rw [ht, ← e]
    split
    · rename_i hf
      have hl : P.left P.n = true := by rw [hk]; simp [left, hf]
      have hr : P.right P.n = false := by simp [right]
      have := main_eq h hg (p := P.n) (le_refl _) (by simp [hl])
      rw [this]
      simp only [sum, hl, hr, Bool.true_and, Bool.false_and, Bool.xor_false]
      rw [hk]; rfl
    · rw [hk]

/-- the total as seen at the landing cells -/
def seen (P : Plan) (β : Cell → Bool) : Nat → Bool
  | 0 => false
  | p + 1 => P.seen β p ^^ (P.col (p + 1) && β (P.landing (p + 1)))

theorem total_seen {P : Plan} {op : Bool} {β : Cell → Bool} (h : P.Runs op β) (p : Nat) : P.total β p = P.seen β p := by
  induction p with
  | zero => rfl
  | succ p ih =>
    simp only [total, seen, ih]
    cases hc : P.col (p + 1)
    · simp
    · rw [landing_eq h hc]

theorem seen_congr {P : Plan} {β β' : Cell → Bool} (h : ∀ p, P.col p = true → β (P.landing p) = β' (P.landing p)) (p : Nat) :
    P.seen β p = P.seen β' p := by
  induction p with
  | zero => rfl
  | succ p ih =>
    simp only [seen, ih]
    cases hc : P.col (p + 1)
    · simp
    · rw [h _ hc]

theorem seen_false {P : Plan} (p : Nat) : P.seen (fun _ => false) p = false := by
  induction p with
  | zero => rfl
  | succ p ih => simp [seen, ih]

/-- the worlds look alike at the observed nodes -/
theorem world_alike {P : Plan} {g : Graph} {Obs : Node → Prop} (hP : P.Ok g Obs) (cells : List Cell) {op : Bool} {v : Node} (hv : Obs v)
    (h0 : op = true → v ≠ P.w 0) (hc : ∀ i ∈ cells, i ∈ P.trailCells ∨ i ∈ P.gameCells) (hn : ∀ i ∈ cells, P.node i = v → (∀ j, i ≠ .guess j) ∧ i ≠ .win)
    (s b s' b' : Bool) :
    (P.wiring cells op).assign (P.world op s b) v = (P.wiring cells op).assign (P.world op s' b') v := by
  unfold Wiring.assign
  apply Wiring.here_congr
  intro i hi e
  have hi' : (∃ p ≤ P.n, i = .main p) ∨ (∃ p j, i = .down p j) ∨ ∃ j, i = .gate j := by
    rcases hc i hi with q | q
    · rcases mem_trailCells.1 q with q | ⟨p, j, _, _, q⟩
      · exact Or.inl q
      · exact Or.inr (Or.inl ⟨p, j, q⟩)
    · rcases mem_gameCells.1 q with ⟨j, _, q⟩ | ⟨j, _, q⟩ | q
      · exact Or.inr (Or.inr ⟨j, q⟩)
      · exact absurd q ((hn i hi e).1 j)
      · exact absurd q (hn i hi e).2
  rcases hi' with ⟨p, hp, rfl⟩ | ⟨p, j, rfl⟩ | ⟨j, rfl⟩
  · have e' : P.w p = v := e
    simp only [world]
    by_cases hz : p = 0
    · subst hz
      cases op with
      | false => simp
      | true => exact absurd e'.symm (h0 rfl)
    · cases hc : P.col p with
      | true => simp
      | false => exact absurd (e' ▸ hv) (hP.free p hz hp hc)
  · rfl
  · rfl

end Plan

/-! ## Trails from paths -/

theorem exists_walk {α : Type} {R : α → α → Prop} {a b : α} (h : ReflTransGen R a b) :
    ∃ (n : Nat) (f : Nat → α), f 0 = a ∧ f n = b ∧ ∀ j < n, R (f j) (f (j + 1)) := by
  induction h with
  | refl => exact ⟨0, fun _ => a, rfl, rfl, by simp⟩
  | @tail b c _ hbc ih =>
    obtain ⟨n, f, h0, hn, hs⟩ := ih
    refine ⟨n + 1, fun j => if j ≤ n then f j else c, by simp [h0], by simp, fun j hj => ?_⟩
    by_cases e : j = n
    · subst e
      simp only [le_refl, if_true, Nat.not_succ_le_self, if_false]
      rw [hn]; exact hbc
    · simp only [show j ≤ n by omega, show j + 1 ≤ n by omega, if_true]
      exact hs j (by omega)

/-- a walk that stops at the first node in `Obs` -/
theorem exists_walk_first {α : Type} {R : α → α → Prop} {Obs : α → Prop} {a b : α} (h : ReflTransGen R a b) (hb : Obs b) :
    ∃ (n : Nat) (f : Nat → α), f 0 = a ∧ Obs (f n) ∧ (∀ j < n, R (f j) (f (j + 1))) ∧ ∀ j < n, ¬ Obs (f j) := by
  classical
  obtain ⟨n, f, h0, hn, hs⟩ := exists_walk h
  have hex : ∃ k, Obs (f k) := ⟨n, hn ▸ hb⟩
  refine ⟨Nat.find hex, f, h0, Nat.find_spec hex, fun j hj => hs j ?_, fun j hj => Nat.find_min hex hj⟩
  have := Nat.find_min' hex (show Obs (f n) from hn ▸ hb)
  omega

theorem Plan.ofPath {g : Graph} (hw : g.Acyclic) {Z p : List Node} {s t : Node} {Obs : Node → Prop} (hp : g.IsUndirPath s t p) (ha : g.Active Z p)
    (ht : t ≠ s → t ∉ Z) (hfree : ∀ v, v ≠ s → v ∉ Z → ¬ Obs v) (hgoal : ∀ v, (∃ z ∈ Z, g.DescEq v z) → ∃ z, Obs z ∧ g.DescEq v z) :
    ∃ P : Plan, P.Ok g Obs ∧ P.w 0 = s ∧ P.w P.n = t ∧ P.n + 1 = p.length ∧ (∀ j ≤ P.n, p[j]? = some (P.w j)) ∧
      (∀ c, P.col c = true → ∀ j < P.len c, ¬ Obs (P.path c j)) ∧ P.h = 0 := by
  classical
  obtain ⟨h1, h2, h3, h4⟩ := hp
  have hlen : 0 < p.length := by
    rcases p with _ | ⟨q, p⟩
    · simp at h1
    · simp
  obtain ⟨n, hn⟩ : ∃ n, n + 1 = p.length := ⟨p.length - 1, by omega⟩
  let w : Nat → Node := fun j => (p[j]?).getD s
  have hwj : ∀ j ≤ n, p[j]? = some (w j) := by
    intro j hj
    rw [List.getElem?_eq_getElem (by omega)]
    simp only [w]
    rw [List.getElem?_eq_getElem (by omega)]
    rfl
  have hadj : ∀ j < n, g.Adj (w j) (w (j + 1)) := by
    intro j hj
    have := List.isChain_iff_getElem.1 h3 j (by omega)
    have e1 := hwj j (by omega)
    have e2 := hwj (j + 1) (by omega)
    rw [List.getElem?_eq_getElem (by omega)] at e1 e2
    rw [← Option.some.inj e1, ← Option.some.inj e2]
    exact this
  let fwd : Nat → Bool := fun j => decide (g.Edge (w j) (w (j + 1)))
  have hstep : ∀ j < n, if fwd j = true then g.Edge (w j) (w (j + 1)) else g.Edge (w (j + 1)) (w j) := by
    intro j hj
    split
    · rename_i h; simpa [fwd] using h
    · rename_i h
      exact (hadj j hj).resolve_left (by simpa [fwd] using h)
  have hsplit : ∀ j, j ≠ 0 → j < n → ∃ l r, p = l ++ w (j - 1) :: w j :: w (j + 1) :: r := by
    intro j h0 hj
    refine ⟨p.take (j - 1), p.drop (j + 2), ?_⟩
    conv_lhs => rw [← List.take_append_drop (j - 1) p]
    congr 1
    have e : ∀ k ≤ n, p.drop k = w k :: p.drop (k + 1) := by
      intro k hk
      have := hwj k hk
      rw [List.getElem?_eq_getElem (by omega)] at this
      rw [List.drop_eq_getElem_cons (by omega), Option.some.inj this]
    rw [e (j - 1) (by omega), show j - 1 + 1 = j by omega, e j (by omega), e (j + 1) (by omega)]
  have hcolE : ∀ j, (j ≠ 0 ∧ j < n ∧ fwd (j - 1) = true ∧ fwd j = false) → g.Edge (w (j - 1)) (w j) ∧ g.Edge (w (j + 1)) (w j) := by
    rintro j ⟨h0, hj, hf, hf'⟩
    have a1 := hstep (j - 1) (by omega)
    have a2 := hstep j hj
    rw [if_pos hf, show j - 1 + 1 = j by omega] at a1
    rw [if_neg (by rw [hf']; simp)] at a2
    exact ⟨a1, a2⟩
  have hdown : ∀ j, ∃ (k : Nat) (f : Nat → Node), (j ≠ 0 ∧ j < n ∧ fwd (j - 1) = true ∧ fwd j = false) →
      f 0 = w j ∧ Obs (f k) ∧ (∀ i < k, g.Edge (f i) (f (i + 1))) ∧ ∀ i < k, ¬ Obs (f i) := by
    intro j
    by_cases hc : j ≠ 0 ∧ j < n ∧ fwd (j - 1) = true ∧ fwd j = false
    · obtain ⟨l, r, e⟩ := hsplit j hc.1 hc.2.1
      obtain ⟨z, hz, hd⟩ := hgoal _ ((ha l _ _ _ r e).1 (hcolE j hc))
      obtain ⟨k, f, q⟩ := exists_walk_first hd hz
      exact ⟨k, f, fun _ => q⟩
    · exact ⟨0, fun _ => s, fun h => absurd h hc⟩
  choose len path hdown using hdown
  have hcol : ∀ (P : Plan), P.n = n → P.fwd = fwd → ∀ j, P.col j = true ↔ (j ≠ 0 ∧ j < n ∧ fwd (j - 1) = true ∧ fwd j = false) := by
    intro P hn hf j
    unfold Plan.col
    rw [hn, hf]
    simp [and_assoc]
  have hnd : ∀ j, j ≠ 0 → j ≤ n → w j ≠ s := by
    intro j h0 hj e
    have e0 := hwj 0 (by omega)
    have ej := hwj j hj
    rw [← List.head?_eq_getElem?, h1] at e0
    rw [e, Option.some.inj e0, ← hwj 0 (by omega)] at ej
    exact h0 ((List.getElem?_inj (by omega) h4).1 ej)
  have hlast : w n = t := by
    have := hwj n (le_refl _)
    rw [List.getLast?_eq_getElem?, show p.length - 1 = n by omega, this] at h2
    exact Option.some.inj h2
  have hcolw := hcol ⟨n, w, fwd, len, path, 0, w, 0, w, s⟩ rfl rfl
  refine ⟨⟨n, w, fwd, len, path, 0, w, 0, w, s⟩, ⟨hstep, fun j hj => ?_, fun j hj => ?_, fun j hj => ?_, fun j h0 hj hc => ?_⟩,
    ?_, hlast, hn, hwj, fun j hj => ?_, rfl⟩
  · exact (hdown j ((hcolw j).1 hj)).1
  · exact (hdown j ((hcolw j).1 hj)).2.2.1
  · exact (hdown j ((hcolw j).1 hj)).2.1
  · refine hfree _ (hnd j h0 hj) ?_
    by_cases e : j = n
    · subst e
      show w j ∉ Z
      rw [hlast]
      exact ht (hlast ▸ hnd j h0 hj)
    · have hlt : j < n := by have : j ≤ n := hj; omega
      obtain ⟨l, r, e'⟩ := hsplit j h0 hlt
      refine (ha l _ _ _ r e').2 (fun hc' => ?_)
      have : ¬ (j ≠ 0 ∧ j < n ∧ fwd (j - 1) = true ∧ fwd j = false) := fun q => by
        rw [(hcolw j).2 q] at hc; simp at hc
      apply this
      refine ⟨h0, hlt, ?_, ?_⟩
      · simp only [fwd, decide_eq_true_eq]; rw [show j - 1 + 1 = j by omega]; exact hc'.1
      · simp only [fwd, decide_eq_false_iff_not]
        intro q
        exact hw _ (TransGen.tail (TransGen.single q) hc'.2)
  · have e0 := hwj 0 (by omega)
    rw [← List.head?_eq_getElem?, h1] at e0
    exact (Option.some.inj e0).symm
  · exact (hdown j ((hcolw j).1 hj)).2.2.2

end Verif

import Verif.Model.DSep
import Verif.Lemmas.Active
import Mathlib.Tactic.Ring

/-! Bayes-ball: the work list computes the inductive ball relation, for every pop order. -/

namespace Verif
open Relation
namespace Graph

/-- `v` is an ancestor of (or is) an observed node. -/
def AnZ (g : Graph) (Z : List Node) (v : Node) : Prop := ∃ z ∈ Z, g.DescEq v z

/-- The reachability relation computed by `active_trail_nodes`, from a set `I` of initial states. -/
inductive Ball (g : Graph) (Z : List Node) (I : Node → Dir → Prop) : Node → Dir → Prop
  | init {v d} : I v d → Ball g Z I v d
  | upPar {v p} : Ball g Z I v .up → v ∉ Z → g.Edge p v → Ball g Z I p .up
  | upCh {v c} : Ball g Z I v .up → v ∉ Z → g.Edge v c → Ball g Z I c .down
  | downCh {v c} : Ball g Z I v .down → v ∉ Z → g.Edge v c → Ball g Z I c .down
  | downPar {v p} : Ball g Z I v .down → g.AnZ Z v → g.Edge p v → Ball g Z I p .up

/-- The single initial state `(s, up)`. -/
def StartUp (s : Node) : Node → Dir → Prop := fun v d => v = s ∧ d = .up

theorem Ball.next {g : Graph} (hw : g.WF) {Z : List Node} {I : Node → Dir → Prop} {x y : BState}
    (hx : Ball g Z I x.1 x.2) (hy : y ∈ ballNext g Z (g.ancestorsOf Z) x) : Ball g Z I y.1 y.2 := by
  obtain ⟨v, d⟩ := x
  obtain ⟨w, e⟩ := y
  cases d with
  | up =>
    simp only [ballNext] at hy
    split at hy
    · simp at hy
    · rename_i hv
      simp only [List.mem_append, List.mem_map, Prod.mk.injEq, mem_parents, mem_children] at hy
      rcases hy with ⟨p, hp, rfl, rfl⟩ | ⟨c, hc, rfl, rfl⟩
      · exact Ball.upPar hx hv hp
      · exact Ball.upCh hx hv hc
  | down =>
    simp only [ballNext, List.mem_append] at hy
    rcases hy with hy | hy
    · split at hy
      · simp at hy
      · rename_i hv
        simp only [List.mem_map, Prod.mk.injEq, mem_children] at hy
        obtain ⟨c, hc, rfl, rfl⟩ := hy
        exact Ball.downCh hx hv hc
    · split at hy
      · rename_i hv
        simp only [List.mem_map, Prod.mk.injEq, mem_parents] at hy
        obtain ⟨c, hc, rfl, rfl⟩ := hy
        exact Ball.downPar hx ((mem_ancestorsOf hw).1 hv) hc
      · simp at hy

theorem Ball.closed {g : Graph} (hw : g.WF) {Z : List Node} {I : Node → Dir → Prop}
    {T : List BState} (hI : ∀ v d, I v d → (v, d) ∈ T)
    (hT : ∀ x ∈ T, ∀ y ∈ ballNext g Z (g.ancestorsOf Z) x, y ∈ T) {v : Node} {d : Dir}
    (h : Ball g Z I v d) : (v, d) ∈ T := by
  induction h with
  | init h => exact hI _ _ h
  | @upPar v p _ hv he ih =>
    refine hT _ ih (p, .up) ?_
    simp [ballNext, hv, mem_parents, mem_children, he]
  | @upCh v p _ hv he ih =>
    refine hT _ ih (p, .down) ?_
    simp [ballNext, hv, mem_parents, mem_children, he]
  | @downCh v p _ hv he ih =>
    refine hT _ ih (p, .down) ?_
    simp [ballNext, hv, mem_children, he]
  | @downPar v p _ hv he ih =>
    refine hT _ ih (p, .up) ?_
    have : v ∈ g.ancestorsOf Z := (mem_ancestorsOf hw).2 hv
    simp [ballNext, this, mem_parents, he]

/-- All states over the nodes of the graph. -/
def allStates (g : Graph) : List BState :=
  g.nodes.map (fun v => (v, Dir.up)) ++ g.nodes.map (fun v => (v, Dir.down))

theorem mem_allStates {g : Graph} {x : BState} : x ∈ g.allStates ↔ x.1 ∈ g.nodes := by
  obtain ⟨v, d⟩ := x
  cases d <;> simp [allStates]

theorem length_allStates {g : Graph} : g.allStates.length = 2 * g.nodes.length := by
  simp [allStates]; ring

/-- Loop invariant. -/
structure BallInv (g : Graph) (Z : List Node) (s : Node) (st : BallSt) : Prop where
  sound : ∀ x ∈ st.visit ++ st.trav, Ball g Z (StartUp s) x.1 x.2
  start : (s, Dir.up) ∈ st.visit ++ st.trav
  closed : ∀ x ∈ st.trav, ∀ y ∈ ballNext g Z (g.ancestorsOf Z) x, y ∈ st.visit ++ st.trav
  active : ∀ v, v ∈ st.active ↔ v ∉ Z ∧ ∃ d, (v, d) ∈ st.trav
  nodes : ∀ x ∈ st.visit ++ st.trav, x.1 ∈ g.nodes
  nodupV : st.visit.Nodup
  nodupT : st.trav.Nodup

theorem ballNext_nodes {g : Graph} (hw : g.WF) {Z anc : List Node} {x y : BState}
    (hy : y ∈ ballNext g Z anc x) : y.1 ∈ g.nodes := by
  obtain ⟨v, d⟩ := x
  obtain ⟨w, e⟩ := y
  have hp : ∀ p, p ∈ g.parents v → p ∈ g.nodes := fun p h => (hw.edgeNodes _ _ (mem_parents.1 h)).1
  have hc : ∀ p, p ∈ g.children v → p ∈ g.nodes := fun p h => (hw.edgeNodes _ _ (mem_children.1 h)).2
  cases d with
  | up =>
    simp only [ballNext] at hy
    split at hy
    · simp at hy
    · simp only [List.mem_append, List.mem_map, Prod.mk.injEq] at hy
      rcases hy with ⟨p, h, rfl, rfl⟩ | ⟨c, h, rfl, rfl⟩
      · exact hp _ h
      · exact hc _ h
  | down =>
    simp only [ballNext, List.mem_append] at hy
    rcases hy with hy | hy <;> split at hy
    · simp at hy
    · simp only [List.mem_map, Prod.mk.injEq] at hy
      obtain ⟨c, h, rfl, rfl⟩ := hy
      exact hc _ h
    · simp only [List.mem_map, Prod.mk.injEq] at hy
      obtain ⟨c, h, rfl, rfl⟩ := hy
      exact hp _ h
    · simp at hy

theorem BallInv.step {g : Graph} (hw : g.WF) {Z : List Node} {s : Node} {st : BallSt} {x : BState}
    (hi : BallInv g Z s st) (hx : x ∈ st.visit) :
    BallInv g Z s (ballStep g Z (g.ancestorsOf Z) x st) := by
  unfold ballStep
  simp only
  split
  · -- already traversed
    rename_i hxt
    have hsub : ∀ y, y ∈ st.visit ++ st.trav →
        y ∈ st.visit.filter (fun y => decide (y ≠ x)) ++ st.trav := by
      intro y hy
      simp only [List.mem_append, List.mem_filter, decide_eq_true_eq] at hy ⊢
      by_cases hyx : y = x
      · subst hyx; exact Or.inr hxt
      · rcases hy with hy | hy
        · exact Or.inl ⟨hy, hyx⟩
        · exact Or.inr hy
    have hsup : ∀ y, y ∈ st.visit.filter (fun y => decide (y ≠ x)) ++ st.trav →
        y ∈ st.visit ++ st.trav := by
      intro y hy
      simp only [List.mem_append, List.mem_filter, decide_eq_true_eq] at hy ⊢
      rcases hy with hy | hy
      · exact Or.inl hy.1
      · exact Or.inr hy
    exact ⟨fun y hy => hi.sound y (hsup y hy), hsub _ hi.start,
      fun y hy z hz => hsub _ (hi.closed y hy z hz), hi.active, fun y hy => hi.nodes y (hsup y hy),
      hi.nodupV.filter _, hi.nodupT⟩
  · rename_i hxt
    have hxB := hi.sound x (List.mem_append.2 (Or.inl hx))
    have hmem : ∀ y, y ∈ (st.visit.filter (fun y => decide (y ≠ x)) ++
        ((ballNext g Z (g.ancestorsOf Z) x).dedup).filter
          (fun y => decide (y ∉ st.visit.filter (fun y => decide (y ≠ x))))) ++ (x :: st.trav) ↔
        y ∈ st.visit ++ st.trav ∨ y ∈ ballNext g Z (g.ancestorsOf Z) x := by
      intro y
      simp only [List.mem_append, List.mem_filter, decide_eq_true_eq, List.mem_dedup, List.mem_cons]
      constructor
      · rintro ((⟨h, _⟩ | ⟨h, _⟩) | rfl | h)
        · exact Or.inl (Or.inl h)
        · exact Or.inr h
        · exact Or.inl (Or.inl hx)
        · exact Or.inl (Or.inr h)
      · rintro ((h | h) | h)
        · by_cases hyx : y = x
          · exact Or.inr (Or.inl hyx)
          · exact Or.inl (Or.inl ⟨h, hyx⟩)
        · exact Or.inr (Or.inr h)
        · by_cases hyx : y = x
          · exact Or.inr (Or.inl hyx)
          · by_cases hyv : y ∈ st.visit
            · exact Or.inl (Or.inl ⟨hyv, hyx⟩)
            · exact Or.inl (Or.inr ⟨h, fun hh => hyv hh.1⟩)
    refine ⟨?_, ?_, ?_, ?_, ?_, ?_, ?_⟩
    · intro y hy
      rcases (hmem y).1 hy with h | h
      · exact hi.sound y h
      · exact Ball.next hw hxB h
    · exact (hmem _).2 (Or.inl hi.start)
    · intro y hy z hz
      refine (hmem z).2 ?_
      rcases List.mem_cons.1 hy with rfl | hy
      · exact Or.inr hz
      · exact Or.inl (hi.closed y hy z hz)
    · intro v
      simp only
      constructor
      · intro hv
        split at hv
        · obtain ⟨h1, d, h2⟩ := (hi.active v).1 hv
          exact ⟨h1, d, by simp [h2]⟩
        · rename_i hxz
          rcases List.mem_cons.1 hv with rfl | hv
          · exact ⟨hxz, x.2, by simp⟩
          · obtain ⟨h1, d, h2⟩ := (hi.active v).1 hv
            exact ⟨h1, d, by simp [h2]⟩
      · rintro ⟨h1, d, h2⟩
        rcases List.mem_cons.1 h2 with h2 | h2
        · have : x.1 = v := by rw [← h2]
          rw [this, if_neg h1]; simp
        · have := (hi.active v).2 ⟨h1, d, h2⟩
          split
          · exact this
          · exact List.mem_cons_of_mem _ this
    · intro y hy
      rcases (hmem y).1 hy with h | h
      · exact hi.nodes y h
      · exact ballNext_nodes hw h
    · rw [List.nodup_append]
      refine ⟨hi.nodupV.filter _, (List.nodup_dedup _).filter _, ?_⟩
      intro a ha b hb
      rintro rfl
      rw [List.mem_filter] at hb
      simp only [decide_eq_true_eq] at hb
      exact hb.2 ha
    · exact List.nodup_cons.2 ⟨hxt, hi.nodupT⟩

/-- Measure for termination. -/
def ballMeasure (g : Graph) (st : BallSt) : Nat :=
  (2 * g.nodes.length - st.trav.length) * (2 * g.nodes.length + 1) + st.visit.length

theorem BallInv.visit_le {g : Graph} {Z : List Node} {s : Node} {st : BallSt} (hi : BallInv g Z s st) :
    st.visit.length ≤ 2 * g.nodes.length := by
  rw [← length_allStates]
  exact length_le_of_nodup_subset hi.nodupV
    (fun x hx => mem_allStates.2 (hi.nodes x (List.mem_append.2 (Or.inl hx))))

theorem BallInv.trav_le {g : Graph} {Z : List Node} {s : Node} {st : BallSt} (hi : BallInv g Z s st) :
    st.trav.length ≤ 2 * g.nodes.length := by
  rw [← length_allStates]
  exact length_le_of_nodup_subset hi.nodupT
    (fun x hx => mem_allStates.2 (hi.nodes x (List.mem_append.2 (Or.inr hx))))

theorem ballMeasure_lt {g : Graph} (hw : g.WF) {Z : List Node} {s : Node} {st : BallSt} {x : BState}
    (hi : BallInv g Z s st) (hx : x ∈ st.visit) :
    ballMeasure g (ballStep g Z (g.ancestorsOf Z) x st) < ballMeasure g st := by
  have hi' := hi.step hw hx
  have hv' := hi'.visit_le
  have ht' := hi'.trav_le
  have hpos : 0 < st.visit.length := List.length_pos_of_mem hx
  revert hv' ht'
  unfold ballStep
  simp only
  split
  · intro _ _
    unfold ballMeasure
    simp only
    have : (st.visit.filter (fun y => decide (y ≠ x))).length < st.visit.length := by
      rw [List.length_filter_lt_length_iff_exists]
      exact ⟨x, hx, by simp⟩
    omega
  · intro hv' ht'
    unfold ballMeasure
    simp only [List.length_cons] at ht' ⊢
    simp only at hv'
    obtain ⟨k, hk⟩ : ∃ k, 2 * g.nodes.length - st.trav.length = k + 1 :=
      ⟨2 * g.nodes.length - st.trav.length - 1, by omega⟩
    have hk' : 2 * g.nodes.length - (st.trav.length + 1) = k := by omega
    rw [hk, hk', Nat.add_mul k 1 (2 * g.nodes.length + 1)]
    omega

theorem ballRun_spec {g : Graph} (hw : g.WF) {Z : List Node} {s : Node} (pick : Pick) (k : Nat)
    (st : BallSt) (hi : BallInv g Z s st) (hk : ballMeasure g st ≤ k) :
    BallInv g Z s (ballRun pick g Z (g.ancestorsOf Z) k st) ∧
      (ballRun pick g Z (g.ancestorsOf Z) k st).visit = [] := by
  induction k generalizing st with
  | zero =>
    refine ⟨hi, ?_⟩
    have : st.visit.length = 0 := by unfold ballMeasure at hk; omega
    simpa [ballRun] using this
  | succ k ih =>
    unfold ballRun
    by_cases hv : st.visit = []
    · rw [hv]; simp; exact ⟨hi, hv⟩
    · have hlen : 0 < st.visit.length := List.length_pos_of_ne_nil hv
      have hlt := Nat.mod_lt (pick k st.visit) hlen
      rw [List.getElem?_eq_getElem hlt]
      simp only
      have hx : st.visit[pick k st.visit % st.visit.length] ∈ st.visit := List.getElem_mem hlt
      refine ih _ (hi.step hw hx) ?_
      have := ballMeasure_lt hw hi hx
      omega

theorem ballInv_init {g : Graph} {Z : List Node} {s : Node} (hs : s ∈ g.nodes) :
    BallInv g Z s ⟨[(s, .up)], [], []⟩ := by
  refine ⟨?_, by simp, by simp, by simp, by simpa using hs, by simp, by simp⟩
  intro x hx
  simp at hx; subst hx
  exact Ball.init ⟨rfl, rfl⟩

theorem activeTrailNodes_ok {g : Graph} (hw : g.WF) (pick : Pick) {s : Node} {Z : List Node}
    (hs : s ∈ g.nodes) (hz : Z ⊆ g.nodes) :
    ∃ act, activeTrailNodes pick g s Z = .ok act ∧
      ∀ t, t ∈ act ↔ t ∉ Z ∧ ∃ d, Ball g Z (StartUp s) t d := by
  unfold activeTrailNodes
  have hck : checkAll Z g.hasNode .value = .ok () := by
    rw [checkAll_ok]; intro x hx; simpa [hasNode] using hz hx
  rw [hck]
  simp only [hs, not_true_eq_false, if_false]
  refine ⟨_, rfl, ?_⟩
  obtain ⟨hi, hv⟩ := ballRun_spec hw pick (ballFuel g) ⟨[(s, .up)], [], []⟩ (ballInv_init (Z := Z) hs)
    (by simp [ballMeasure, ballFuel])
  intro t
  rw [hi.active]
  refine and_congr_right (fun _ => exists_congr (fun d => ?_))
  constructor
  · intro h
    exact hi.sound _ (List.mem_append.2 (Or.inr h))
  · intro h
    have := Ball.closed hw (T := (ballRun pick g Z (g.ancestorsOf Z) (ballFuel g)
      ⟨[(s, .up)], [], []⟩).trav) ?_ ?_ h
    · exact this
    · rintro v d ⟨rfl, rfl⟩
      have := hi.start
      rw [hv] at this
      simpa using this
    · intro x hx y hy
      have := hi.closed x hx y hy
      rw [hv] at this
      simpa using this

theorem isDConnected_ok {g : Graph} (hw : g.WF) (pick : Pick) {s t : Node} {Z : List Node}
    (hs : s ∈ g.nodes) (hz : Z ⊆ g.nodes) :
    ∃ b, isDConnected pick g s t Z = .ok b ∧
      (b = true ↔ t ∉ Z ∧ ∃ d, Ball g Z (StartUp s) t d) := by
  obtain ⟨act, h1, h2⟩ := activeTrailNodes_ok hw pick hs hz
  unfold isDConnected
  rw [h1]
  exact ⟨_, rfl, by simpa using h2 t⟩

/-! ### Activity of lists -/

theorem active_cons {g : Graph} {Z : List Node} {a : Node} {q : List Node} :
    g.Active Z (a :: q) ↔ (∀ b c r, q = b :: c :: r → g.TripleOK Z a b c) ∧ g.Active Z q := by
  constructor
  · intro h
    refine ⟨?_, ?_⟩
    · rintro b c r rfl
      exact h [] a b c r (by simp)
    · intro l x b c r he
      exact h (a :: l) x b c r (by simp [he])
  · rintro ⟨h1, h2⟩ l x b c r he
    cases l with
    | nil =>
      simp at he
      obtain ⟨rfl, rfl⟩ := he
      exact h1 b c r rfl
    | cons y l =>
      simp at he
      exact h2 l x b c r he.2

theorem active_three {g : Graph} {Z : List Node} {a b c : Node} {r : List Node} :
    g.Active Z (a :: b :: c :: r) ↔ g.TripleOK Z a b c ∧ g.Active Z (b :: c :: r) := by
  rw [active_cons]
  constructor
  · rintro ⟨h1, h2⟩; exact ⟨h1 b c r rfl, h2⟩
  · rintro ⟨h1, h2⟩
    refine ⟨?_, h2⟩
    intro b' c' r' he
    simp at he
    obtain ⟨rfl, rfl, rfl⟩ := he
    exact h1

theorem active_split {g : Graph} {Z : List Node} {l r : List Node} {a b : Node} :
    g.Active Z (l ++ a :: b :: r) ↔ g.Active Z (l ++ [a, b]) ∧ g.Active Z (a :: b :: r) := by
  induction l with
  | nil =>
    simp only [List.nil_append]
    constructor
    · intro h
      refine ⟨?_, h⟩
      intro l x b c r he
      have := congrArg List.length he
      simp at this
      omega
    · exact fun h => h.2
  | cons x l ih =>
    cases l with
    | nil =>
      simp only [List.cons_append, List.nil_append] at ih ⊢
      rw [active_three, active_three]
      constructor
      · rintro ⟨h1, h2⟩; exact ⟨⟨h1, (ih.1 h2).1⟩, (ih.1 h2).2⟩
      · rintro ⟨⟨h1, _⟩, h3⟩; exact ⟨h1, h3⟩
    | cons y l =>
      cases l with
      | nil =>
        simp only [List.cons_append, List.nil_append] at ih ⊢
        rw [active_three, active_three (r := [b]), ih]
        simp only [and_assoc]
      | cons z l =>
        simp only [List.cons_append] at ih ⊢
        rw [active_three, active_three (r := l ++ [a, b]), ih]
        simp only [and_assoc]

theorem active_prefix {g : Graph} {Z l r : List Node} (h : g.Active Z (l ++ r)) : g.Active Z l := by
  intro l' a b c r' he
  exact h l' a b c (r' ++ r) (by simp [he])

theorem active_suffix {g : Graph} {Z l r : List Node} (h : g.Active Z (l ++ r)) : g.Active Z r := by
  intro l' a b c r' he
  exact h (l ++ l') a b c r' (by simp [he])

theorem active_singleton {g : Graph} {Z : List Node} {a : Node} : g.Active Z [a] := by
  intro l x b c r he
  have := congrArg List.length he
  simp at this
  omega

theorem active_pair {g : Graph} {Z : List Node} {a b : Node} : g.Active Z [a, b] := by
  intro l x b c r he
  have := congrArg List.length he
  simp at this
  omega

theorem tripleOK_symm {g : Graph} {Z : List Node} {a b c : Node} (h : g.TripleOK Z a b c) :
    g.TripleOK Z c b a :=
  ⟨fun hh => h.1 ⟨hh.2, hh.1⟩, fun hh => h.2 (fun h' => hh ⟨h'.2, h'.1⟩)⟩

theorem active_reverse {g : Graph} {Z p : List Node} (h : g.Active Z p) : g.Active Z p.reverse := by
  intro l a b c r he
  have := congrArg List.reverse he
  simp at this
  exact tripleOK_symm (h r.reverse c b a l.reverse (by simp [this]))

/-! ### Walks -/

/-- If an active walk leaves `v` along an outgoing edge, it is directed all the way or `v` has an
observed descendant. -/
theorem out_walk {g : Graph} {Z : List Node} {v w e : Node} {q : List Node}
    (hc : (v :: w :: q).IsChain g.Adj) (ha : g.Active Z (v :: w :: q)) (hvw : g.Edge v w)
    (hl : (v :: w :: q).getLast? = some e) : g.Desc v e ∨ g.AnZ Z v := by
  induction q generalizing v w with
  | nil => simp at hl; subst hl; exact Or.inl (TransGen.single hvw)
  | cons x q ih =>
    rw [active_three] at ha
    rw [List.isChain_cons_cons] at hc
    have hwx := (List.isChain_cons_cons.1 hc.2).1
    have cons_an : g.AnZ Z w → g.AnZ Z v := fun ⟨z, hz, hd⟩ => ⟨z, hz, ReflTransGen.head hvw hd⟩
    rcases hwx with hwx | hwx
    · rcases ih hc.2 ha.2 hwx (by simpa [List.getLast?_cons_cons] using hl) with h | h
      · exact Or.inl (TransGen.head hvw h)
      · exact Or.inr (cons_an h)
    · exact Or.inr (cons_an (ha.1.1 ⟨hvw, hwx⟩))

theorem exists_repeat {α : Type} {p : List α} (h : ¬ p.Nodup) :
    ∃ L v M R, p = L ++ v :: (M ++ v :: R) := by
  induction p with
  | nil => simp at h
  | cons a p ih =>
    by_cases ha : a ∈ p
    · obtain ⟨M, R, rfl⟩ := List.append_of_mem ha
      exact ⟨[], a, M, R, by simp⟩
    · have : ¬ p.Nodup := fun hn => h (List.nodup_cons.2 ⟨ha, hn⟩)
      obtain ⟨L, v, M, R, rfl⟩ := ih this
      exact ⟨a :: L, v, M, R, by simp⟩

theorem cut_loop {g : Graph} (hw : g.WF) {Z L M R : List Node} {v : Node}
    (hc : (L ++ v :: (M ++ v :: R)).IsChain g.Adj) (ha : g.Active Z (L ++ v :: (M ++ v :: R))) :
    (L ++ v :: R).IsChain g.Adj ∧ g.Active Z (L ++ v :: R) := by
  have hsuf : (v :: R).IsChain g.Adj := by
    have h1 : L ++ v :: (M ++ v :: R) = (L ++ v :: M) ++ v :: R := by simp
    rw [h1] at hc
    exact (List.isChain_append.1 hc).2.1
  have hpre : (L ++ [v]).IsChain g.Adj := by
    have h1 : L ++ v :: (M ++ v :: R) = (L ++ [v]) ++ (M ++ v :: R) := by simp
    rw [h1] at hc
    exact (List.isChain_append.1 hc).1
  have asuf : g.Active Z (v :: R) := by
    have h1 : L ++ v :: (M ++ v :: R) = (L ++ v :: M) ++ v :: R := by simp
    rw [h1] at ha
    exact active_suffix ha
  have apre : g.Active Z (L ++ [v]) := by
    have h1 : L ++ v :: (M ++ v :: R) = (L ++ [v]) ++ (M ++ v :: R) := by simp
    rw [h1] at ha
    exact active_prefix ha
  refine ⟨List.isChain_split.2 ⟨hpre, hsuf⟩, ?_⟩
  by_cases hL : L = []
  · subst hL; simpa using asuf
  by_cases hR : R = []
  · subst hR; exact apre
  obtain ⟨L', a, rfl⟩ := exists_snoc hL
  cases R with
  | nil => exact absurd rfl hR
  | cons c R =>
    have e1 : L' ++ [a] ++ v :: c :: R = L' ++ a :: v :: (c :: R) := by simp
    rw [e1, active_split, active_three]
    refine ⟨by simpa using apre, ?_, asuf⟩
    -- the loop v :: M ++ [v]
    have hM : M ≠ [] := by
      rintro rfl
      have h1 : L' ++ [a] ++ v :: ([] ++ v :: c :: R) = (L' ++ [a]) ++ v :: v :: (c :: R) := by simp
      rw [h1] at hc
      have := isChain_iff_split.1 hc _ _ _ _ rfl
      rcases this with h | h <;> exact no_loop hw.acyclic h
    obtain ⟨M1, w, hMw⟩ := exists_snoc hM
    cases hM0 : M with
    | nil => exact absurd hM0 hM
    | cons m M2 =>
      -- old triples at both occurrences of v
      have t1 : g.TripleOK Z a v m := by
        refine ha L' a v m (M2 ++ v :: c :: R) ?_
        rw [hM0]; simp
      have t2 : g.TripleOK Z w v c := by
        refine ha (L' ++ [a] ++ v :: M1) w v c R ?_
        rw [hMw]; simp
      have hvm : g.Adj v m := by
        refine isChain_iff_split.1 hc (L' ++ [a]) v m (M2 ++ v :: c :: R) ?_
        rw [hM0]; simp
      constructor
      · rintro ⟨hav, hcv⟩
        rcases hvm with hvm | hvm
        · -- leaving v downwards and coming back
          have hloopc : (v :: m :: (M2 ++ [v])).IsChain g.Adj := by
            have h1 : L' ++ [a] ++ v :: (M ++ v :: c :: R) =
              (L' ++ [a]) ++ ((v :: m :: (M2 ++ [v])) ++ c :: R) := by rw [hM0]; simp
            rw [h1] at hc
            exact (List.isChain_append.1 (List.isChain_append.1 hc).2.1).1
          have hloopa : g.Active Z (v :: m :: (M2 ++ [v])) := by
            have h1 : L' ++ [a] ++ v :: (M ++ v :: c :: R) =
              (L' ++ [a]) ++ ((v :: m :: (M2 ++ [v])) ++ c :: R) := by rw [hM0]; simp
            rw [h1] at ha
            exact active_prefix (active_suffix ha)
          have hlast : (v :: m :: (M2 ++ [v])).getLast? = some v := by
            have : v :: m :: (M2 ++ [v]) = (v :: m :: M2) ++ [v] := by simp
            rw [this, List.getLast?_concat]
          rcases out_walk hloopc hloopa hvm hlast with h | h
          · exact absurd h (hw.acyclic v)
          · exact h
        · exact t1.1 ⟨hav, hvm⟩
      · intro hnc
        by_cases hav : g.Edge a v
        · have hcv : ¬ g.Edge c v := fun h => hnc ⟨hav, h⟩
          exact t2.2 (fun h => hcv h.2)
        · exact t1.2 (fun h => hav h.1)

theorem walk_to_path {g : Graph} (hw : g.WF) {Z : List Node} {s t : Node} (n : Nat) :
    ∀ p : List Node, p.length ≤ n → p.head? = some s → p.getLast? = some t → p.IsChain g.Adj →
      g.Active Z p → ∃ p', g.IsUndirPath s t p' ∧ g.Active Z p' := by
  induction n with
  | zero =>
    intro p hp hs
    have : p = [] := List.length_eq_zero_iff.1 (Nat.le_zero.1 hp)
    subst this; simp at hs
  | succ n ih =>
    intro p hp hs ht hc ha
    by_cases hn : p.Nodup
    · exact ⟨p, ⟨hs, ht, hc, hn⟩, ha⟩
    · obtain ⟨L, v, M, R, rfl⟩ := exists_repeat hn
      obtain ⟨hc', ha'⟩ := cut_loop hw hc ha
      refine ih (L ++ v :: R) ?_ ?_ ?_ hc' ha'
      · simp at hp ⊢; omega
      · cases L with
        | nil => simpa using hs
        | cons x L => simpa using hs
      · have h1 : L ++ v :: (M ++ v :: R) = (L ++ v :: M) ++ v :: R := by simp
        rw [h1, List.getLast?_append] at ht
        rw [List.getLast?_append]
        cases R with
        | nil => simpa using ht
        | cons c R =>
          have : ((v :: c :: R).getLast?).isSome := by simp
          obtain ⟨y, hy⟩ := Option.isSome_iff_exists.1 this
          rw [hy] at ht ⊢
          simpa using ht

/-- Ball states come from active walks. -/
theorem ball_to_walk {g : Graph} (hw : g.WF) {Z : List Node} {s v : Node} {d : Dir}
    (h : Ball g Z (StartUp s) v d) :
    ∃ p : List Node, p.head? = some s ∧ p.getLast? = some v ∧ p.IsChain g.Adj ∧ g.Active Z p ∧
      (p = [s] ∨ s ∉ Z) ∧
      (d = .up → p = [s] ∨ ∃ l b, p = l ++ [b, v] ∧ g.Edge v b) ∧
      (d = .down → ∃ l b, p = l ++ [b, v] ∧ g.Edge b v) := by
  -- extending a walk that ends in `[b, v]` by `n`
  have ext2 : ∀ {l : List Node} {b v n : Node}, (l ++ [b, v]).head? = some s →
      (l ++ [b, v]).IsChain g.Adj → g.Active Z (l ++ [b, v]) → g.Adj v n → g.TripleOK Z b v n →
      ((l ++ [b]) ++ [v, n]).head? = some s ∧ ((l ++ [b]) ++ [v, n]).getLast? = some n ∧
      ((l ++ [b]) ++ [v, n]).IsChain g.Adj ∧ g.Active Z ((l ++ [b]) ++ [v, n]) := by
    intro l b v n h1 h2 h3 h4 h5
    refine ⟨?_, ?_, ?_, ?_⟩
    · cases l with
      | nil => simpa using h1
      | cons x l => simpa using h1
    · have : (l ++ [b]) ++ [v, n] = (l ++ [b, v]) ++ [n] := by simp
      rw [this, List.getLast?_concat]
    · rw [List.isChain_split]
      exact ⟨by simpa using h2, by simpa using h4⟩
    · have : (l ++ [b]) ++ [v, n] = l ++ b :: v :: [n] := by simp
      rw [this, active_split, active_three]
      exact ⟨h3, h5, active_pair⟩
  have ext1 : ∀ {n : Node}, g.Adj s n →
      ([] ++ [s, n]).head? = some s ∧ ([] ++ [s, n]).getLast? = some n ∧
      ([] ++ [s, n]).IsChain g.Adj ∧ g.Active Z ([] ++ [s, n]) := by
    intro n h
    refine ⟨by simp, by simp, by simpa using h, active_pair⟩
  induction h with
  | init h =>
    obtain ⟨rfl, rfl⟩ := h
    exact ⟨[_], by simp, by simp, by simp, active_singleton, Or.inl rfl, fun _ => Or.inl rfl, by simp⟩
  | @upPar v p _ hv he ih =>
    obtain ⟨q, h1, h2, h3, h4, h5, h6, _⟩ := ih
    rcases h6 rfl with rfl | ⟨l, b, rfl, hvb⟩
    · simp at h2; subst h2
      obtain ⟨a1, a2, a3, a4⟩ := ext1 (n := p) (Or.inr he)
      exact ⟨_, a1, a2, a3, a4, Or.inr hv, fun _ => Or.inr ⟨[], s, by simp, he⟩, by simp⟩
    · obtain ⟨a1, a2, a3, a4⟩ := ext2 (n := p) h1 h3 h4 (Or.inr he)
        ⟨fun hh => absurd hh.1 (fun h => no_two_cycle hw.acyclic h hvb), fun _ => hv⟩
      refine ⟨_, a1, a2, a3, a4, Or.inr ?_, fun _ => Or.inr ⟨l ++ [b], v, rfl, he⟩, by simp⟩
      rcases h5 with h5 | h5
      · have := congrArg List.length h5; simp at this
      · exact h5
  | @upCh v c _ hv he ih =>
    obtain ⟨q, h1, h2, h3, h4, h5, h6, _⟩ := ih
    rcases h6 rfl with rfl | ⟨l, b, rfl, hvb⟩
    · simp at h2; subst h2
      obtain ⟨a1, a2, a3, a4⟩ := ext1 (n := c) (Or.inl he)
      exact ⟨_, a1, a2, a3, a4, Or.inr hv, by simp, fun _ => ⟨[], s, by simp, he⟩⟩
    · obtain ⟨a1, a2, a3, a4⟩ := ext2 (n := c) h1 h3 h4 (Or.inl he)
        ⟨fun hh => absurd hh.1 (fun h => no_two_cycle hw.acyclic h hvb), fun _ => hv⟩
      refine ⟨_, a1, a2, a3, a4, Or.inr ?_, by simp, fun _ => ⟨l ++ [b], v, rfl, he⟩⟩
      rcases h5 with h5 | h5
      · have := congrArg List.length h5; simp at this
      · exact h5
  | @downCh v c _ hv he ih =>
    obtain ⟨q, h1, h2, h3, h4, h5, _, h7⟩ := ih
    obtain ⟨l, b, rfl, hbv⟩ := h7 rfl
    obtain ⟨a1, a2, a3, a4⟩ := ext2 (n := c) h1 h3 h4 (Or.inl he)
      ⟨fun hh => absurd hh.2 (fun h => no_two_cycle hw.acyclic h he), fun _ => hv⟩
    refine ⟨_, a1, a2, a3, a4, Or.inr ?_, by simp, fun _ => ⟨l ++ [b], v, rfl, he⟩⟩
    rcases h5 with h5 | h5
    · have := congrArg List.length h5; simp at this
    · exact h5
  | @downPar v p _ hv he ih =>
    obtain ⟨q, h1, h2, h3, h4, h5, _, h7⟩ := ih
    obtain ⟨l, b, rfl, hbv⟩ := h7 rfl
    obtain ⟨a1, a2, a3, a4⟩ := ext2 (n := p) h1 h3 h4 (Or.inr he)
      ⟨fun _ => hv, fun hh => absurd ⟨hbv, he⟩ hh⟩
    refine ⟨_, a1, a2, a3, a4, Or.inr ?_, fun _ => Or.inr ⟨l ++ [b], v, rfl, he⟩, by simp⟩
    rcases h5 with h5 | h5
    · have := congrArg List.length h5; simp at this
    · exact h5

/-- Active walks from an unobserved node are followed by the ball. -/
theorem walk_to_ball {g : Graph} (hw : g.WF) {Z : List Node} {I : Node → Dir → Prop} {s : Node}
    (hI : I s .up) (hs : s ∉ Z) :
    ∀ (n : Nat) (l : List Node) (b v : Node), l.length = n → (l ++ [b, v]).head? = some s →
      (l ++ [b, v]).IsChain g.Adj → g.Active Z (l ++ [b, v]) →
      (g.Edge b v → Ball g Z I v .down) ∧ (g.Edge v b → Ball g Z I v .up) := by
  intro n
  induction n with
  | zero =>
    intro l b v hl h1 _ _
    have : l = [] := List.length_eq_zero_iff.1 hl
    subst this
    simp at h1; subst h1
    exact ⟨fun h => Ball.upCh (Ball.init hI) hs h, fun h => Ball.upPar (Ball.init hI) hs h⟩
  | succ n ih =>
    intro l b v hl h1 h2 h3
    have hne : l ≠ [] := by rintro rfl; simp at hl
    obtain ⟨l', a, rfl⟩ := exists_snoc hne
    have e1 : l' ++ [a] ++ [b, v] = l' ++ a :: b :: [v] := by simp
    rw [e1, active_split, active_three] at h3
    have hc := isChain_iff_split.1 h2
    have hab : g.Adj a b := hc l' a b [v] (by simp)
    have hprev := ih l' a b (by simpa using hl)
      (by cases l' with
          | nil => simpa using h1
          | cons x l' => simpa using h1)
      (by
        have : l' ++ [a] ++ [b, v] = (l' ++ [a, b]) ++ [v] := by simp
        rw [this] at h2
        exact (List.isChain_append.1 h2).1) h3.1
    obtain ⟨hcol, hncol⟩ := h3.2.1
    constructor
    · intro hbv
      by_cases hh : g.Edge a b ∧ g.Edge v b
      · exact absurd hbv (fun h => no_two_cycle hw.acyclic h hh.2)
      · have hbz := hncol hh
        rcases hab with hab | hab
        · exact Ball.downCh (hprev.1 hab) hbz hbv
        · exact Ball.upCh (hprev.2 hab) hbz hbv
    · intro hvb
      by_cases hh : g.Edge a b
      · exact Ball.downPar (hprev.1 hh) (hcol ⟨hh, hvb⟩) hvb
      · have hbz := hncol (fun h => hh h.1)
        rcases hab with hab | hab
        · exact absurd hab hh
        · exact Ball.upPar (hprev.2 hab) hbz hvb

theorem path_to_ball {g : Graph} (hw : g.WF) {Z : List Node} {s t : Node} (hs : s ∉ Z)
    {p : List Node} (h1 : p.head? = some s) (h2 : p.getLast? = some t) (h3 : p.IsChain g.Adj)
    (h4 : g.Active Z p) : ∃ d, Ball g Z (StartUp s) t d := by
  obtain ⟨q, rfl⟩ := getLast?_eq_some_snoc h2
  by_cases hq : q = []
  · subst hq
    simp at h1; subst h1
    exact ⟨.up, Ball.init ⟨rfl, rfl⟩⟩
  · obtain ⟨l, b, rfl⟩ := exists_snoc hq
    have e1 : l ++ [b] ++ [t] = l ++ [b, t] := by simp
    rw [e1] at h1 h3 h4
    have := walk_to_ball hw (I := StartUp s) ⟨rfl, rfl⟩ hs l.length l b t rfl h1 h3 h4
    rcases isChain_iff_split.1 h3 l b t [] rfl with h | h
    · exact ⟨.down, this.1 h⟩
    · exact ⟨.up, this.2 h⟩

theorem ball_iff_dconn {g : Graph} (hw : g.WF) {Z : List Node} {s t : Node} :
    (t ∉ Z ∧ ∃ d, Ball g Z (StartUp s) t d) ↔ g.DConn s t Z := by
  constructor
  · rintro ⟨ht, d, h⟩
    obtain ⟨p, h1, h2, h3, h4, h5, _⟩ := ball_to_walk hw h
    have hs : s ∉ Z := by
      rcases h5 with rfl | h5
      · simp at h2; subst h2; exact ht
      · exact h5
    obtain ⟨p', hp', ha'⟩ := walk_to_path hw p.length p le_rfl h1 h2 h3 h4
    exact ⟨hs, ht, p', hp', ha'⟩
  · rintro ⟨hs, ht, p, hp, ha⟩
    exact ⟨ht, path_to_ball hw hs hp.1 hp.2.1 hp.2.2.1 ha⟩

theorem isDConnected_spec {g : Graph} (hw : g.WF) (pick : Pick) {s t : Node} {Z : List Node}
    (hs : s ∈ g.nodes) (hz : Z ⊆ g.nodes) :
    ∃ b, isDConnected pick g s t Z = .ok b ∧ (b = true ↔ g.DConn s t Z) := by
  obtain ⟨b, h1, h2⟩ := isDConnected_ok hw pick (t := t) hs hz
  exact ⟨b, h1, h2.trans (ball_iff_dconn hw)⟩

theorem dconn_symm {g : Graph} {s t : Node} {Z : List Node} (h : g.DConn s t Z) : g.DConn t s Z := by
  obtain ⟨hs, ht, p, ⟨h1, h2, h3, h4⟩, ha⟩ := h
  refine ⟨ht, hs, p.reverse, ⟨by simpa using h2, by simpa using h1, ?_, by simpa using h4⟩,
    active_reverse ha⟩
  rw [List.isChain_reverse]
  exact h3.imp (fun a b hab => hab.symm)

/-! ### `find_active_path` -/

theorem lastForward_snoc {g : Graph} {l : List Node} {e : Node} :
    lastForward g (l ++ [e]) e = false ↔ (∀ l' q, l = l' ++ [q] → ¬ g.Edge q e) := by
  unfold lastForward
  rw [List.dropLast_concat]
  by_cases hl : l = []
  · subst hl; simp
  · obtain ⟨l', q, rfl⟩ := exists_snoc hl
    simp only [List.getLast?_concat, decide_eq_false_iff_not, mem_children]
    constructor
    · intro h l'' q' he
      have := List.append_inj_right' he rfl
      simp at this
      rw [← this]; exact h
    · intro h; exact h l' q rfl

theorem mem_activeNeighbours_snoc {g : Graph} (hw : g.WF) {Z l : List Node} {e n : Node} :
    n ∈ activeNeighbours g Z (l ++ [e]) ↔ n ∉ l ++ [e] ∧
      ((g.Edge n e ∧ n ∉ Z ∧ ((∀ l' q, l = l' ++ [q] → ¬ g.Edge q e) ∨ g.AnZ Z e)) ∨
       (g.Edge e n ∧ e ∉ Z)) := by
  have hpar : n ∈ (if (!lastForward g (l ++ [e]) e ||
        decide (e ∈ g.ancestorsOf Z)) = true then (g.parents e).filter (fun x => decide (x ∉ Z)) else []) ↔
      g.Edge n e ∧ n ∉ Z ∧ ((∀ l' q, l = l' ++ [q] → ¬ g.Edge q e) ∨ g.AnZ Z e) := by
    rw [← lastForward_snoc]
    have : e ∈ g.ancestorsOf Z ↔ g.AnZ Z e := mem_ancestorsOf hw
    rw [← this]
    split
    · rename_i h
      simp only [Bool.or_eq_true, Bool.not_eq_true', decide_eq_true_eq] at h
      simp [mem_parents, h]
    · rename_i h
      simp only [Bool.or_eq_true, Bool.not_eq_true', decide_eq_true_eq] at h
      simp only [List.not_mem_nil, false_iff]
      exact fun hh => h hh.2.2
  have hch : n ∈ (if e ∈ Z then [] else g.children e) ↔ g.Edge e n ∧ e ∉ Z := by
    split
    · rename_i h; simp [h]
    · rename_i h; simp [h, mem_children]
  unfold activeNeighbours
  rw [List.getLast?_concat]
  simp only [List.mem_filter, List.mem_dedup, decide_eq_true_eq]
  rw [List.mem_append, hpar, hch]
  exact and_comm

/-- Simple paths found by `find_active_path`. -/
theorem ext_active {g : Graph} (hw : g.WF) {ord : SetOrder} (ho : ord.Valid) {Z : List Node}
    {s t : Node} (hst : s ≠ t) (htz : t ∉ Z) {p : List Node} :
    Ext (fun p => ord p (activeNeighbours g Z p)) t [s] p ↔
      g.IsUndirPath s t p ∧ g.Active Z p ∧ (s ∈ Z → ∀ n r, p = s :: n :: r → g.Edge n s) := by
  have hmem : ∀ path n, n ∈ ord path (activeNeighbours g Z path) ↔ n ∈ activeNeighbours g Z path :=
    fun path n => (ho path _).mem_iff
  rw [ext_iff]
  simp only [hmem]
  constructor
  · rintro ⟨q, rfl, htq, hq⟩
    have key : ∀ l1 a b l2, [s] ++ q ++ [t] = l1 ++ a :: b :: l2 →
        b ∈ activeNeighbours g Z (l1 ++ [a]) := by
      intro l1 a b l2 he
      have he' : s :: (q ++ [t]) = (l1 ++ [a]) ++ b :: l2 := by simpa using he
      cases hl : l1 ++ [a] with
      | nil => simp at hl
      | cons c q1 =>
        rw [hl] at he'
        simp at he'
        have := hq q1 b l2 he'.2
        have hpath : [s] ++ q1 = c :: q1 := by rw [he'.1]; rfl
        rw [hpath] at this
        exact this
    refine ⟨⟨by simp, List.getLast?_concat, ?_, ?_⟩, ?_, ?_⟩
    · rw [isChain_iff_split]
      intro l1 a b l2 he
      have := (mem_activeNeighbours_snoc hw).1 (key l1 a b l2 he)
      rcases this.2 with h | h
      · exact Or.inr h.1
      · exact Or.inl h.1
    · have : ∀ r, r <+: ([s] ++ q ++ [t]) → r.Nodup := by
        intro r
        induction r using List.reverseRecOn with
        | nil => simp
        | append_singleton r b ih =>
          intro hr
          have hr' : r <+: ([s] ++ q ++ [t]) := (List.prefix_append _ _).trans hr
          cases hr0 : r with
          | nil => simp
          | cons c r0 =>
            obtain ⟨l1, a, hla⟩ := exists_snoc (l := r) (by simp [hr0])
            obtain ⟨l2, hl2⟩ := hr
            have := ((mem_activeNeighbours_snoc hw).1 (key l1 a b l2 (by rw [← hl2, hla]; simp))).1
            rw [← hr0, List.nodup_append]
            refine ⟨ih hr', by simp, ?_⟩
            intro x hx y hy
            simp at hy; subst hy
            rintro rfl
            rw [← hla] at this
            exact this hx
      exact this _ List.prefix_rfl
    · intro l a b c r he
      have k1 := ((mem_activeNeighbours_snoc hw).1 (key l a b (c :: r) he)).2
      have k2 := ((mem_activeNeighbours_snoc hw).1 (key (l ++ [a]) b c r (by rw [he]; simp))).2
      constructor
      · rintro ⟨hab, hcb⟩
        rcases k2 with ⟨_, _, h | h⟩ | h
        · exact absurd hab (h l a rfl)
        · exact h
        · exact absurd hcb (fun h' => no_two_cycle hw.acyclic h' h.1)
      · intro hnc
        rcases k2 with ⟨hcb, hcz, h⟩ | h
        · rcases k1 with ⟨hba, hbz, _⟩ | ⟨hab, _⟩
          · exact hbz
          · exact absurd ⟨hab, hcb⟩ hnc
        · exact h.2
    · intro hsz n r he
      have := ((mem_activeNeighbours_snoc hw).1 (key [] s n r (by simpa using he))).2
      rcases this with h | h
      · exact h.1
      · exact absurd hsz h.2
  · rintro ⟨⟨hs, ht, hc, hn⟩, ha, hf⟩
    obtain ⟨q, rfl⟩ := head_last_split hs ht hst
    refine ⟨q, by simp, ?_, ?_⟩
    · rw [List.cons_append, List.nodup_cons, List.nodup_append] at hn
      intro hq
      exact hn.2.2.2 t hq t (by simp) rfl
    · intro q1 n q2 he
      obtain ⟨l1, e, hl⟩ := exists_snoc (l := [s] ++ q1) (by simp)
      have hp : s :: q ++ [t] = ([s] ++ q1) ++ n :: q2 := by simp [he]
      have hp' : s :: q ++ [t] = l1 ++ e :: n :: q2 := by rw [hp, hl]; simp
      have hadj : g.Adj e n := isChain_iff_split.1 hc l1 e n q2 hp'
      -- an upward step ends in an unobserved node
      have hup : g.Edge n e → n ∉ Z := by
        intro hne
        cases q2 with
        | nil =>
          have : (s :: q ++ [t]).getLast? = (l1 ++ [e] ++ [n]).getLast? := by rw [hp']; simp
          rw [ht, List.getLast?_concat] at this
          simp at this
          rw [← this]; exact htz
        | cons c q2 =>
          exact (ha (l1) e n c q2 hp').2 (fun h => no_two_cycle hw.acyclic h.1 hne)
      rw [hl, mem_activeNeighbours_snoc hw]
      constructor
      · rw [hp, hl, List.nodup_append] at hn
        intro hm
        exact hn.2.2 n hm n (by simp) rfl
      · by_cases hl1 : l1 = []
        · subst hl1
          simp at hl
          have hes : e = s := hl.1.symm
          subst hes
          rcases hadj with h | h
          · refine Or.inr ⟨h, ?_⟩
            intro hz
            exact no_two_cycle hw.acyclic h (hf hz n q2 (by simpa using hp'))
          · exact Or.inl ⟨h, hup h, Or.inl (by intro l' q' he'; simp at he')⟩
        · obtain ⟨l0, a, rfl⟩ := exists_snoc hl1
          have htr := ha l0 a e n q2 (by rw [hp']; simp)
          rcases hadj with h | h
          · exact Or.inr ⟨h, htr.2 (fun hh => no_two_cycle hw.acyclic h hh.2)⟩
          · refine Or.inl ⟨h, hup h, ?_⟩
            by_cases hae : g.Edge a e
            · exact Or.inr (htr.1 ⟨hae, h⟩)
            · refine Or.inl ?_
              intro l' q' he'
              have := List.append_inj_right' he' rfl
              simp at this
              rw [← this]; exact hae

theorem mem_dfs_active {g : Graph} (hw : g.WF) {ord : SetOrder} (ho : ord.Valid) {Z : List Node}
    {s t : Node} (hs : s ∈ g.nodes) (htz : t ∉ Z) {p : List Node} :
    p ∈ dfsSearchPaths (fun p => ord p (activeNeighbours g Z p)) s t g.nodes.length ↔
      g.IsUndirPath s t p ∧ g.Active Z p ∧ (s ∈ Z → ∀ n r, p = s :: n :: r → g.Edge n s) := by
  unfold dfsSearchPaths
  split
  · rename_i hst
    subst hst
    simp only [List.mem_singleton]
    constructor
    · rintro rfl
      exact ⟨⟨by simp, by simp, by simp, by simp⟩, active_singleton, fun h => absurd h htz⟩
    · rintro ⟨⟨h1, h2, _, h3⟩, _⟩
      exact head_last_self h1 h2 h3
  · rename_i hst
    rw [mem_dfsRec, ext_active hw ho hst htz]
    constructor
    · exact fun h => h.1
    · intro h
      refine ⟨h, ?_⟩
      have := length_le_of_nodup_subset h.1.2.2.2 (undirPath_subset hw hs h.1)
      omega

end Graph
end Verif

import Verif.Props.Games
import Verif.Props.Witness

/-!
# C125: the two-player games of `simple_macids`
-/

namespace Verif
open Net Graph Relation Macid

/-- the checks on a network built from tables and domains of decisions -/
def tableCheck (ad au : Dict Agent (List Node)) (m : Macid) (rels : List (Node × Rel)) (net : Net) : Bool :=
  decide (ad.keys.Nodup) && decide (au.keys.Nodup) && decide ((ad.flatMap (·.2) ++ au.flatMap (·.2)).Nodup) &&
  (ad.flatMap (·.2) ++ au.flatMap (·.2)).all (fun n => decide (n ∈ m.g.nodes)) &&
  m.g.nodes.all (fun n => decide (n ∈ rels.map (·.1))) &&
  decide ((rels.map (·.1)).Nodup) &&
  rels.all (fun r => match r.2 with
    | .tab c => decide (c.kind = .tabular) && decide (c.var = r.1) && decide (c.evidence.Perm (m.g.parents r.1)) &&
        decide (c.evCard = c.evidence.map (fun p => ((net.domain.get? p).getD []).length)) && c.table.all colClose
    | _ => true) &&
  m.g.nodes.all (fun v => ((net.cpds.get? v).map Cpd.table).all (fun t => t.all (fun col =>
        col.all (fun y => decide (0 ≤ y)) && decide (col.sum = 1)))) &&
  m.agentUtilities.keys.all (fun a => decide (a ∈ m.agentDecisions.keys)) &&
  m.agentDecisions.keys.all (fun a => decide (a ∈ m.agentUtilities.keys)) &&
  m.agentUtilities.keys.all (fun a => m.g.nodes.any (fun n => decide (m.role n = .decision a)) &&
    m.g.nodes.any (fun n => decide (m.role n = .utility a)))

theorem usable_of_tables {edges : List (Node × Node)} {ad au : Dict Agent (List Node)} {m : Macid} {rels : List (Node × Rel)} {net : Net}
    (hi : Macid.init edges ad au = .ok m)
    (ha : (Net.mk m [] [] [] Macid.new).addCpds rels = (net, .ok ()))
    (hh : ∀ p ∈ rels, Honest p.2) (hc : tableCheck ad au m rels net = true) :
    net.Usable ∧ net.m = m := by
  unfold tableCheck at hc
  simp only [Bool.and_eq_true, decide_eq_true_eq, List.all_eq_true, List.any_eq_true] at hc
  obtain ⟨⟨⟨⟨⟨⟨⟨⟨⟨⟨c1, c2⟩, c3⟩, c4⟩, c5⟩, c6⟩, c7⟩, c8⟩, c9⟩, c10⟩, c11⟩ := hc
  have hcons := C15_constructor_consistent edges ad au m hi c1 c2 c3 c4
  have hruns := addCpds_runs ha
  have hm : net.m = m := (runs_m hruns).1
  have hb : net.base = Macid.new := (runs_m hruns).2
  have hG : net.Good := by
    refine good_of_runs (net := ⟨m, [], [], [], Macid.new⟩) hcons.wf ⟨rfl, rfl, rfl⟩ ?_ hruns ?_ ?_
    · intro op ho
      obtain ⟨p, hp, rfl⟩ := List.mem_map.1 ho
      exact hh p hp
    · intro v hv
      obtain ⟨p, hp, rfl⟩ := List.mem_map.1 (c5 v hv)
      rw [Dict.mem_keys]
      cases hg : Dict.get? rels p.1 with
      | none => exact absurd (List.mem_map.2 ⟨p, hp, rfl⟩) (fun h => by
          obtain ⟨x, hx⟩ := Dict.mem_keys.1 (show p.1 ∈ Dict.keys rels from h)
          rw [hg] at hx; cases hx)
      | some r => exact ⟨r, by rw [addCpds_rels c6 ha, hg]⟩
    · intro v c h
      rw [addCpds_rels c6 ha v] at h
      cases hg : Dict.get? rels v with
      | none => rw [hg] at h; simp [Dict.get?] at h
      | some r =>
        rw [hg] at h
        simp only [Option.some.injEq] at h
        subst h
        have := c7 _ (Dict.mem_of_get? hg)
        simp only [Bool.and_eq_true, decide_eq_true_eq] at this
        obtain ⟨⟨⟨⟨q1, q2⟩, q3⟩, q4⟩, q5⟩ := this
        refine ⟨q1, q2, fun p => ?_, q4, q5⟩
        rw [q3.mem_iff, Graph.mem_parents]
        show _ ↔ net.m.g.Edge p v
        rw [hm]
  refine ⟨⟨hG, ?_, hm ▸ hcons, Or.inl hb, ⟨?_, ?_⟩⟩, hm⟩
  · apply normalised_of_tables hG
    intro v c hcv
    have hv := cpds_node hG hcv
    have := c8 v (by rw [← hm]; exact hv)
    rw [hcv] at this
    simp only [Option.map_some, Option.all_some, List.all_eq_true, Bool.and_eq_true, decide_eq_true_eq] at this
    exact this
  · rw [hm]
    exact fun a => ⟨c9 a, c10 a⟩
  · rw [hm]
    intro a haa
    obtain ⟨⟨x, _, hx⟩, y, _, hy⟩ := c11 a haa
    exact Or.inl ⟨⟨x, hx⟩, y, hy⟩

/-- the network `add_cpds` leaves -/
def tabularNet (seen : Bool) (rels : List (Node × Rel)) : Net := ((Net.mk (boardM .counted seen) [] [] [] Macid.new).addCpds rels).1

/-- a game with tabular utilities is the game of the tables `F` and `G` -/
theorem tabular_board {seen : Bool} {rels : List (Node × Rel)} {F G : Outcome → Outcome → Rat} (hh : ∀ p ∈ rels, Honest p.2)
    (hok : ((Net.mk (boardM .counted seen) [] [] [] Macid.new).addCpds rels).2 = .ok ())
    (hc : tableCheck [(0, ["D1"]), (1, ["D2"])] [(0, ["U1"]), (1, ["U2"])] (boardM .counted seen) rels (tabularNet seen rels) = true)
    (hd : (tabularNet seen rels).dom "D1" = [0, 1] ∧ (tabularNet seen rels).dom "D2" = [0, 1])
    (hp : ∀ x ∈ [(0 : Outcome), 1], ∀ y ∈ [(0 : Outcome), 1],
      (∀ z ∈ (tabularNet seen rels).dom "U1", (tabularNet seen rels).kernel "U1" (Assign.upd (Assign.upd (Assign.upd (fun _ => 0) "D1" x) "D2" y) "U1" z) =
        if z = F x y then 1 else 0) ∧
      ∀ z ∈ (tabularNet seen rels).dom "U2", (tabularNet seen rels).kernel "U2" (Assign.upd (Assign.upd (Assign.upd (fun _ => 0) "D1" x) "D2" y) "U2" z) =
        if z = G x y then 1 else 0) :
    ∃ net, tabularGame seen rels = .ok net ∧ net.m = boardM .counted seen ∧
      Board net "D1" "D2" "U1" "U2" 0 1 seen [0, 1] [0, 1] F G := by
  have hs : Seats.counted = .numbered ∨ Seats.counted = .couple ∨ Seats.counted = .counted := .inr (.inr rfl)
  obtain ⟨-, -, c3, c4, c5, c6, c7, c8⟩ := boardM_facts hs seen
  have hadd : (Net.mk (boardM .counted seen) [] [] [] Macid.new).addCpds rels = (tabularNet seen rels, .ok ()) := by
    rw [← hok]; rfl
  obtain ⟨hU, hm⟩ := usable_of_tables (boardM_init hs seen) hadd hh hc
  have hg : (tabularNet seen rels).g = (boardM .counted seen).g := congrArg Macid.g hm
  refine ⟨tabularNet seen rels, ?_, hm, hU, c3, by rw [hg]; exact boardM_nodes _ _, by rw [hg]; exact boardM_edge _ _, c4, by rw [hm]; exact c5,
    by rw [hm]; exact c6, by rw [hm]; exact c7, by rw [hm]; exact c8, hd.1, hd.2, fun a ha => ?_, fun a ha => ?_⟩
  · unfold tabularGame
    have hi : Macid.init ((if seen then [("D1", "D2")] else []) ++ [("D1", "U1"), ("D1", "U2"), ("D2", "U2"), ("D2", "U1")])
      [(0, ["D1"]), (1, ["D2"])] [(0, ["U1"]), (1, ["U2"])] = .ok (boardM .counted seen) := boardM_init hs seen
    rw [hi]
    simp only
    rw [hadd]
  all_goals
    have hn := boardM_nodes .counted seen
    have m1 := ha "D1" (by rw [hg, hn]; simp [Seats.counted])
    have m2 := ha "D2" (by rw [hg, hn]; simp [Seats.counted])
    rw [hd.1] at m1
    rw [hd.2] at m2
  · have m3 := ha "U1" (by rw [hg, hn]; simp [Seats.counted])
    rw [← (hp _ m1 _ m2).1 _ m3]
    apply kernel_depends hU.good (by rw [hg, hn]; simp [Seats.counted])
    rintro u (rfl | hu)
    · simp
    · rw [hg, boardM_edge] at hu
      simp only [Seats.counted, true_or, and_true, (by decide : ("U1" : Node) ≠ "D2"), and_false, or_false] at hu
      rcases hu with rfl | rfl <;> simp [Assign.upd]
  · have m3 := ha "U2" (by rw [hg, hn]; simp [Seats.counted])
    rw [← (hp _ m1 _ m2).2 _ m3]
    apply kernel_depends hU.good (by rw [hg, hn]; simp [Seats.counted])
    rintro u (rfl | hu)
    · simp
    · rw [hg, boardM_edge] at hu
      simp only [Seats.counted, or_true, and_true, (by decide : ("U2" : Node) ≠ "D2"), and_false, or_false] at hu
      rcases hu with rfl | rfl <;> simp [Assign.upd]

/-- **C125** `two_agent_one_pne` has exactly one equilibrium, mixed strategies included: both choose 0. -/
theorem C125_one_pne : ∃ net, twoAgentOnePne = .ok net ∧ net.Usable ∧ ∀ n, n.Usable → OnlyRules net net.m.decisions n →
    (n.NoGain ["D1", "D2"] [1, 2] ↔ n.chooses "D1" 0 = 1 ∧ n.chooses "D2" 0 = 1) := by
  obtain ⟨net, h1, h2, h3⟩ := simultaneous2 (s := .numbered) (.inl rfl) (a := 1) (b := 3) (c := 0) (d := 2) (a' := 2) (b' := 0) (c' := 3) (d' := 2)
  refine ⟨net, h1, h2, fun n hU ho => ?_⟩
  obtain ⟨p, q, p0, p1, q0, q1, e1, -, e3, -, e5⟩ := h3 n hU ho
  rw [show n.NoGain ["D1", "D2"] [1, 2] ↔ _ from e5, show n.chooses "D1" 0 = _ from e1, show n.chooses "D2" 0 = _ from e3]
  constructor
  · rintro ⟨k1, k2, k3, k4⟩
    constructor <;> nlinarith
  · rintro ⟨rfl, rfl⟩
    norm_num

/-- the payoffs of `two_agent_two_pne` -/
def twoPneF (x y : Outcome) : Rat := tableEntry [[1, 4], [2, 3]] [0, 1] [0, 1] x y
def twoPneG (x y : Outcome) : Rat := tableEntry [[1, 2], [4, 3]] [0, 1] [0, 1] x y

theorem twoPne_board : ∃ net, twoAgentTwoPne = .ok net ∧ net.m = boardM .counted false ∧
    Board net "D1" "D2" "U1" "U2" 0 1 false [0, 1] [0, 1] twoPneF twoPneG :=
  tabular_board (by
    simp only [twoPneRels, List.forall_mem_cons, List.not_mem_nil, false_implies, implies_true, and_true]
    refine ⟨?_, ?_, trivial, trivial⟩ <;> exact ⟨by decide +kernel, by decide +kernel, by decide +kernel, by decide +kernel, by decide +kernel⟩)
    (by decide +kernel) (by decide +kernel) (by decide +kernel) (by decide +kernel)

/-- **C125** `two_agent_two_pne` has exactly three equilibria, of which two are pure: the agents choose differently, or both choose at
random with probability one half. -/
theorem C125_two_pne : ∃ net, twoAgentTwoPne = .ok net ∧ net.Usable ∧ ∀ n, n.Usable → OnlyRules net net.m.decisions n →
    (n.NoGain ["D1", "D2"] [0, 1] ↔ (n.chooses "D1" 0 = 1 ∧ n.chooses "D2" 0 = 0) ∨ (n.chooses "D1" 0 = 0 ∧ n.chooses "D2" 0 = 1) ∨
      (n.chooses "D1" 0 = 1 / 2 ∧ n.chooses "D2" 0 = 1 / 2)) := by
  obtain ⟨net, h1, hm, hb⟩ := twoPne_board
  refine ⟨net, h1, hb.usable, fun n hU ho => ?_⟩
  obtain ⟨p, q, p0, p1, q0, q1, e1, -, e3, -, e5⟩ := board_simultaneous2 (s := .counted) (by rw [hm]; rfl) hb hU ho
  rw [show n.NoGain ["D1", "D2"] [0, 1] ↔ _ from e5, show n.chooses "D1" 0 = _ from e1, show n.chooses "D2" 0 = _ from e3]
  rw [show twoPneF 0 0 = 1 by decide +kernel, show twoPneF 0 1 = 4 by decide +kernel, show twoPneF 1 0 = 2 by decide +kernel,
    show twoPneF 1 1 = 3 by decide +kernel, show twoPneG 0 0 = 1 by decide +kernel, show twoPneG 0 1 = 2 by decide +kernel,
    show twoPneG 1 0 = 4 by decide +kernel, show twoPneG 1 1 = 3 by decide +kernel]
  constructor
  · rintro ⟨k1, k2, k3, k4⟩
    rcases eq_or_lt_of_le p0 with h | h
    · subst h
      refine .inr (.inl ⟨rfl, ?_⟩)
      linarith
    · rcases eq_or_lt_of_le p1 with h' | h'
      · subst h'
        refine .inl ⟨rfl, ?_⟩
        linarith
      · refine .inr (.inr ?_)
        have hq : q = 1 / 2 := by
          apply le_antisymm <;> nlinarith
        subst hq
        refine ⟨?_, rfl⟩
        linarith
  · rintro (⟨rfl, rfl⟩ | ⟨rfl, rfl⟩ | ⟨rfl, rfl⟩) <;> norm_num

/-- the payoffs of `two_agent_no_pne` -/
def noPneF (x y : Outcome) : Rat := tableEntry [[1, 0], [0, 1]] [0, 1] [0, 1] x y
def noPneG (x y : Outcome) : Rat := tableEntry [[0, 1], [1, 0]] [0, 1] [0, 1] x y

theorem noPne_board : ∃ net, twoAgentNoPne = .ok net ∧ net.m = boardM .counted false ∧
    Board net "D1" "D2" "U1" "U2" 0 1 false [0, 1] [0, 1] noPneF noPneG :=
  tabular_board (by
    simp only [noPneRels, List.forall_mem_cons, List.not_mem_nil, false_implies, implies_true, and_true]
    refine ⟨?_, ?_, trivial, trivial⟩ <;> exact ⟨by decide +kernel, by decide +kernel, by decide +kernel, by decide +kernel, by decide +kernel⟩)
    (by decide +kernel) (by decide +kernel) (by decide +kernel) (by decide +kernel)

/-- **C125** `two_agent_no_pne` has exactly one equilibrium, and it is not pure: both choose at random with probability one half. -/
theorem C125_no_pne : ∃ net, twoAgentNoPne = .ok net ∧ net.Usable ∧ ∀ n, n.Usable → OnlyRules net net.m.decisions n →
    (n.NoGain ["D1", "D2"] [0, 1] ↔ n.chooses "D1" 0 = 1 / 2 ∧ n.chooses "D2" 0 = 1 / 2) := by
  obtain ⟨net, h1, hm, hb⟩ := noPne_board
  refine ⟨net, h1, hb.usable, fun n hU ho => ?_⟩
  obtain ⟨p, q, p0, p1, q0, q1, e1, -, e3, -, e5⟩ := board_simultaneous2 (s := .counted) (by rw [hm]; rfl) hb hU ho
  rw [show n.NoGain ["D1", "D2"] [0, 1] ↔ _ from e5, show n.chooses "D1" 0 = _ from e1, show n.chooses "D2" 0 = _ from e3]
  rw [show noPneF 0 0 = 1 by decide +kernel, show noPneF 0 1 = 0 by decide +kernel, show noPneF 1 0 = 0 by decide +kernel,
    show noPneF 1 1 = 1 by decide +kernel, show noPneG 0 0 = 0 by decide +kernel, show noPneG 0 1 = 1 by decide +kernel,
    show noPneG 1 0 = 1 by decide +kernel, show noPneG 1 1 = 0 by decide +kernel]
  constructor
  · rintro ⟨k1, k2, k3, k4⟩
    have hp : p = 1 / 2 := by
      rcases lt_trichotomy p (1 / 2) with h | h | h
      · have : q = 1 := by nlinarith
        subst this
        nlinarith
      · exact h
      · have : q = 0 := by nlinarith
        subst this
        nlinarith
    subst hp
    refine ⟨rfl, ?_⟩
    linarith
  · rintro ⟨rfl, rfl⟩
    norm_num

/-- the payoffs of `basic2agent_tie_break` -/
def tieF (x y : Outcome) : Rat := tableEntry [[3, 0], [3, 1]] [0, 1] [0, 1] x y
def tieG (x y : Outcome) : Rat := tableEntry [[1, 5], [2, 2]] [0, 1] [0, 1] x y

theorem tie_board : ∃ net, tieBreak = .ok net ∧ net.m = boardM .counted true ∧
    Board net "D1" "D2" "U1" "U2" 0 1 true [0, 1] [0, 1] tieF tieG :=
  tabular_board (by
    simp only [tieBreakRels, List.forall_mem_cons, List.not_mem_nil, false_implies, implies_true, and_true]
    refine ⟨trivial, trivial, ?_, ?_⟩ <;> exact ⟨by decide +kernel, by decide +kernel, by decide +kernel, by decide +kernel, by decide +kernel⟩)
    (by decide +kernel) (by decide +kernel) (by decide +kernel) (by decide +kernel)

/-- **C125** `basic2agent_tie_break`: the second agent is indifferent after 1.  The strategies are subgame perfect exactly if the first agent
chooses 1 and the second would answer 0 by 1; however the tie is broken, the first agent's choice is the same. -/
theorem C125_tie_break : ∃ net, tieBreak = .ok net ∧ net.Usable ∧ ∀ n, n.Usable → OnlyRules net net.m.decisions n →
    (n.SubgamePerfect ↔ n.chooses "D1" 0 = 0 ∧ n.answers "D1" "D2" 0 0 = 0) := by
  obtain ⟨net, h1, hm, hb⟩ := tie_board
  refine ⟨net, h1, hb.usable, fun n hU ho => ?_⟩
  obtain ⟨p, q, r, p0, p1, q0, q1, r0, r1, e1, e2, -, -, e5⟩ := board_sequential2 (s := .counted) (.inr (.inr rfl)) hm hb hU ho
  rw [e5, show n.chooses "D1" 0 = _ from e1, show n.answers "D1" "D2" 0 0 = _ from e2]
  rw [show tieF 0 0 = 3 by decide +kernel, show tieF 0 1 = 0 by decide +kernel, show tieF 1 0 = 3 by decide +kernel,
    show tieF 1 1 = 1 by decide +kernel, show tieG 0 0 = 1 by decide +kernel, show tieG 0 1 = 5 by decide +kernel,
    show tieG 1 0 = 2 by decide +kernel, show tieG 1 1 = 2 by decide +kernel]
  constructor
  · rintro ⟨k1, k2, k3, k4, k5, k6⟩
    have hq : q = 0 := by linarith
    subst hq
    refine ⟨?_, rfl⟩
    by_contra hh
    have : 0 < p := lt_of_le_of_ne p0 (Ne.symm hh)
    nlinarith
  · rintro ⟨rfl, rfl⟩
    norm_num
    linarith

theorem mix3 (x : Outcome → Rat) : IsMix [0, 1, 2] x ↔ (0 ≤ x 0 ∧ 0 ≤ x 1 ∧ 0 ≤ x 2) ∧ x 0 + x 1 + x 2 = 1 := by
  unfold IsMix
  simp [add_assoc]

/-- **C125** `two_agents_three_actions` has exactly one equilibrium, mixed strategies included: "T" and "L". -/
theorem C125_three_actions : ∃ net, twoAgentsThreeActions = .ok net ∧ net.Usable ∧ ∀ n, n.Usable → OnlyRules net net.m.decisions n →
    (n.NoGain ["D1", "D2"] [1, 2] ↔ n.chooses "D1" 0 = 1 ∧ n.chooses "D2" 0 = 1) := by
  obtain ⟨net, e, hm, hb⟩ := tableGame_board (s := .numbered) (.inl rfl) false (l1 := [0, 1, 2]) (l2 := [0, 1, 2]) (by simp) (by simp)
    (by decide +kernel) (by decide +kernel) (A := [[4, 5, 6], [2, 8, 3], [3, 9, 2]]) (B := [[3, 1, 2], [1, 4, 6], [0, 6, 8]])
    ⟨rfl, by simp⟩ ⟨rfl, by simp⟩
  have hd : net.m.decisions = ["D1", "D2"] := by rw [hm]; rfl
  refine ⟨net, e, hb.usable, fun n hU ho => ?_⟩
  have hB := hb.move (ds := net.m.decisions) (by rw [hd]; simp [Seats.numbered]) hU ho
  have hans : ∀ a b, n.answers "D1" "D2" a b = n.chooses "D2" b := by
    intro a b
    unfold answers chooses
    apply kernel_depends hU.good hB.mem2
    rintro v (rfl | e)
    · simp [Seats.numbered]
    · exact absurd ((hB.parents2 v).1 e).1 (by simp)
  have hx := (mix3 _).1 hB.mix1
  have hy := (mix3 _).1 (hB.reply2.1 0 (by simp))
  have hA : ∀ x y, expectedPayoff [0, 1, 2] [0, 1, 2] (tableEntry [[4, 5, 6], [2, 8, 3], [3, 9, 2]] [0, 1, 2] [0, 1, 2]) x y =
      x 0 * (4 * y 0 0 + 5 * y 0 1 + 6 * y 0 2) + x 1 * (2 * y 1 0 + 8 * y 1 1 + 3 * y 1 2) + x 2 * (3 * y 2 0 + 9 * y 2 1 + 2 * y 2 2) := by
    intro x y
    unfold expectedPayoff tableEntry
    simp only [List.map_cons, List.map_nil, List.sum_cons, List.sum_nil, show List.idxOf (0 : Outcome) [0, 1, 2] = 0 by decide +kernel,
      show List.idxOf (1 : Outcome) [0, 1, 2] = 1 by decide +kernel, show List.idxOf (2 : Outcome) [0, 1, 2] = 2 by decide +kernel,
      List.getD_cons_zero, List.getD_cons_succ]
    ring
  have hBp : ∀ x y, expectedPayoff [0, 1, 2] [0, 1, 2] (tableEntry [[3, 1, 2], [1, 4, 6], [0, 6, 8]] [0, 1, 2] [0, 1, 2]) x y =
      x 0 * (3 * y 0 0 + 1 * y 0 1 + 2 * y 0 2) + x 1 * (1 * y 1 0 + 4 * y 1 1 + 6 * y 1 2) + x 2 * (0 * y 2 0 + 6 * y 2 1 + 8 * y 2 2) := by
    intro x y
    unfold expectedPayoff tableEntry
    simp only [List.map_cons, List.map_nil, List.sum_cons, List.sum_nil, show List.idxOf (0 : Outcome) [0, 1, 2] = 0 by decide +kernel,
      show List.idxOf (1 : Outcome) [0, 1, 2] = 1 by decide +kernel, show List.idxOf (2 : Outcome) [0, 1, 2] = 2 by decide +kernel,
      List.getD_cons_zero, List.getD_cons_succ]
    ring
  rw [show n.NoGain ["D1", "D2"] [1, 2] ↔ _ from hB.noGain_iff]
  unfold TableEquilibrium
  simp only [hA, hBp]
  simp only [show Seats.numbered.d1 = "D1" from rfl, show Seats.numbered.d2 = "D2" from rfl, hans] at hx hy ⊢
  generalize n.chooses "D1" = x at hx ⊢
  generalize n.chooses "D2" = y at hy ⊢
  obtain ⟨⟨x0, x1, x2⟩, xs⟩ := hx
  obtain ⟨⟨y0, y1, y2⟩, ys⟩ := hy
  have d02 : (2 : Outcome) ≠ 0 := by decide +kernel
  have d12 : (2 : Outcome) ≠ 1 := by decide +kernel
  have d01 : (1 : Outcome) ≠ 0 := by decide +kernel
  constructor
  · rintro ⟨k1, k2⟩
    have r1 := k2 (fun _ b => if b = 0 then y 0 else if b = 1 then 0 else y 1 + y 2)
      ⟨fun a _ => (mix3 _).2 (by simp [d02, d12, d01, y0, add_nonneg y1 y2, ← add_assoc, ys]), fun _ _ _ _ => rfl⟩
    simp only [d02, d12, d01, if_true, if_false] at r1
    have hy1 : y 1 = 0 := by nlinarith
    have r2 := k1 (fun b => if b = 0 then 1 else 0) ((mix3 _).2 (by simp [d02, d01]))
    simp only [d02, d01, if_true, if_false, hy1] at r2
    rw [hy1] at ys
    have hx0 : x 0 = 1 := by nlinarith
    have hx1 : x 1 = 0 := by linarith
    have hx2 : x 2 = 0 := by linarith
    have r3 := k2 (fun _ b => if b = 0 then 1 else 0) ⟨fun a _ => (mix3 _).2 (by simp [d02, d01]), fun _ _ _ _ => rfl⟩
    simp only [d02, d01, if_true, if_false, hx0, hx1, hx2, hy1] at r3
    exact ⟨hx0, by linarith⟩
  · rintro ⟨hx0, hy0⟩
    have hx1 : x 1 = 0 := by linarith
    have hx2 : x 2 = 0 := by linarith
    have hy1 : y 1 = 0 := by linarith
    have hy2 : y 2 = 0 := by linarith
    refine ⟨fun x' hx' => ?_, fun y' hy' => ?_⟩
    · obtain ⟨⟨a0, a1, a2⟩, as⟩ := (mix3 _).1 hx'
      rw [hx0, hx1, hx2, hy0, hy1, hy2]
      linarith
    · obtain ⟨⟨a0, a1, a2⟩, as⟩ := (mix3 _).1 (hy'.1 0 (by simp))
      rw [hx0, hx1, hx2, hy0, hy1, hy2]
      linarith

/-- **C125** `basic_different_dec_cardinality` has exactly one subgame perfect equilibrium: the first agent chooses 1, the second answers 0
by 1 and 1 by 2. -/
theorem C125_different_cardinality : ∃ net, differentCardinality = .ok net ∧ net.Usable ∧ ∀ n, n.Usable → OnlyRules net net.m.decisions n →
    (n.SubgamePerfect ↔ n.chooses "D1" 1 = 1 ∧ n.answers "D1" "D2" 0 1 = 1 ∧ n.answers "D1" "D2" 1 2 = 1) := by
  obtain ⟨net, e, hm, hb⟩ := tableGame_board (s := .counted) (.inr (.inr rfl)) true (l1 := [0, 1]) (l2 := [0, 1, 2]) (by simp) (by simp)
    (by decide +kernel) (by decide +kernel) (A := [[3, 1, 0], [1, 2, 3]]) (B := [[1, 2, 1], [1, 0, 3]]) ⟨rfl, by simp⟩ ⟨rfl, by simp⟩
  have hd : net.m.decisions = ["D1", "D2"] := by rw [hm]; rfl
  refine ⟨net, e, hb.usable, fun n hU ho => ?_⟩
  have hB := hb.move (ds := net.m.decisions) (by rw [hd]; simp [Seats.counted]) hU ho
  have hx := (mix2 _).1 hB.mix1
  have hy := (mix3 _).1 (hB.reply2.1 0 (by simp))
  have hz := (mix3 _).1 (hB.reply2.1 1 (by simp))
  have hA : ∀ x y, expectedPayoff [0, 1] [0, 1, 2] (tableEntry [[3, 1, 0], [1, 2, 3]] [0, 1] [0, 1, 2]) x y =
      x 0 * (3 * y 0 0 + 1 * y 0 1 + 0 * y 0 2) + x 1 * (1 * y 1 0 + 2 * y 1 1 + 3 * y 1 2) := by
    intro x y
    unfold expectedPayoff tableEntry
    simp only [List.map_cons, List.map_nil, List.sum_cons, List.sum_nil, show List.idxOf (0 : Outcome) [0, 1, 2] = 0 by decide +kernel,
      show List.idxOf (1 : Outcome) [0, 1, 2] = 1 by decide +kernel, show List.idxOf (2 : Outcome) [0, 1, 2] = 2 by decide +kernel,
      show List.idxOf (0 : Outcome) [0, 1] = 0 by decide +kernel, show List.idxOf (1 : Outcome) [0, 1] = 1 by decide +kernel,
      List.getD_cons_zero, List.getD_cons_succ]
    ring
  have hG0 : ∀ z, replyPayoff [0, 1, 2] (tableEntry [[1, 2, 1], [1, 0, 3]] [0, 1] [0, 1, 2]) 0 z = 1 * z 0 + 2 * z 1 + 1 * z 2 := by
    intro z
    unfold replyPayoff tableEntry
    simp only [List.map_cons, List.map_nil, List.sum_cons, List.sum_nil, show List.idxOf (0 : Outcome) [0, 1, 2] = 0 by decide +kernel,
      show List.idxOf (1 : Outcome) [0, 1, 2] = 1 by decide +kernel, show List.idxOf (2 : Outcome) [0, 1, 2] = 2 by decide +kernel,
      show List.idxOf (0 : Outcome) [0, 1] = 0 by decide +kernel, List.getD_cons_zero, List.getD_cons_succ]
    ring
  have hG1 : ∀ z, replyPayoff [0, 1, 2] (tableEntry [[1, 2, 1], [1, 0, 3]] [0, 1] [0, 1, 2]) 1 z = 1 * z 0 + 0 * z 1 + 3 * z 2 := by
    intro z
    unfold replyPayoff tableEntry
    simp only [List.map_cons, List.map_nil, List.sum_cons, List.sum_nil, show List.idxOf (0 : Outcome) [0, 1, 2] = 0 by decide +kernel,
      show List.idxOf (1 : Outcome) [0, 1, 2] = 1 by decide +kernel, show List.idxOf (2 : Outcome) [0, 1, 2] = 2 by decide +kernel,
      show List.idxOf (1 : Outcome) [0, 1] = 1 by decide +kernel, List.getD_cons_zero, List.getD_cons_succ]
    ring
  rw [board_subgame_perfect (s := .counted) (.inr (.inr rfl)) (by decide +kernel) hm hb hU ho]
  simp only [List.forall_mem_cons, List.not_mem_nil, false_implies, implies_true, and_true, hA, hG0, hG1]
  simp only [show Seats.counted.d1 = "D1" from rfl, show Seats.counted.d2 = "D2" from rfl] at hx hy hz ⊢
  generalize n.chooses "D1" = x at hx ⊢
  generalize n.answers "D1" "D2" = y at hy hz ⊢
  obtain ⟨x0, x1, xs⟩ := hx
  obtain ⟨⟨y0, y1, y2⟩, ys⟩ := hy
  obtain ⟨⟨z0, z1, z2⟩, zs⟩ := hz
  have d02 : (2 : Outcome) ≠ 0 := by decide +kernel
  have d12 : (2 : Outcome) ≠ 1 := by decide +kernel
  have d01 : (1 : Outcome) ≠ 0 := by decide +kernel
  have d10 : (0 : Outcome) ≠ 1 := by decide +kernel
  have d20 : (0 : Outcome) ≠ 2 := by decide +kernel
  have d21 : (1 : Outcome) ≠ 2 := by decide +kernel
  constructor
  · rintro ⟨⟨k1, k2⟩, k3⟩
    have r1 := k1 (fun b => if b = 1 then 1 else 0) ((mix3 _).2 (by simp [d12, d10]))
    simp only [d12, d10, if_true, if_false] at r1
    have r2 := k2 (fun b => if b = 2 then 1 else 0) ((mix3 _).2 (by simp [d20, d21]))
    simp only [d20, d21, if_true, if_false] at r2
    have hy1 : y 0 1 = 1 := by linarith
    have hz2 : y 1 2 = 1 := by linarith
    have r3 := k3 (fun b => if b = 1 then 1 else 0) ((mix2 _).2 (by simp [d10]))
    simp only [d10, if_true, if_false] at r3
    have e1 : y 0 0 = 0 := by linarith
    have e2 : y 1 0 = 0 := by linarith
    have e3 : y 1 1 = 0 := by linarith
    have e4 : y 0 2 = 0 := by linarith
    rw [hy1, hz2, e1, e2, e3, e4] at r3
    exact ⟨by linarith, hy1, hz2⟩
  · rintro ⟨hx1, hy1, hz2⟩
    have e0 : x 0 = 0 := by linarith
    have e1 : y 0 0 = 0 := by linarith
    have e2 : y 1 0 = 0 := by linarith
    have e3 : y 1 1 = 0 := by linarith
    have e4 : y 0 2 = 0 := by linarith
    rw [hx1, hy1, hz2, e0, e1, e2, e3, e4]
    refine ⟨⟨fun z hz => ?_, fun z hz => ?_⟩, fun x' hx' => ?_⟩
    · obtain ⟨⟨a0, a1, a2⟩, as⟩ := (mix3 _).1 hz
      linarith
    · obtain ⟨⟨a0, a1, a2⟩, as⟩ := (mix3 _).1 hz
      linarith
    · obtain ⟨a0, a1, as⟩ := (mix2 _).1 hx'
      linarith

/-- what the tables of a game with tabular utilities mean -/
theorem board_tables {seen : Bool} {F G : Outcome → Outcome → Rat} {net : Net} (hm : net.m = boardM .counted seen)
    (hb : Board net "D1" "D2" "U1" "U2" 0 1 seen [0, 1] [0, 1] F G) :
    (∀ n, n.Usable → OnlyRules net net.m.decisions n →
      n.EU 0 = expectedPayoff [0, 1] [0, 1] F (n.chooses "D1") (n.answers "D1" "D2") ∧
      n.EU 1 = expectedPayoff [0, 1] [0, 1] G (n.chooses "D1") (n.answers "D1" "D2")) ∧
    ∀ x y, IsMix [0, 1] x → IsReply seen [0, 1] [0, 1] y → ∃ n, n.Usable ∧ OnlyRules net net.m.decisions n ∧
      (∀ a ∈ [(0 : Outcome), 1], n.chooses "D1" a = x a) ∧ ∀ a ∈ [(0 : Outcome), 1], ∀ b ∈ [(0 : Outcome), 1], n.answers "D1" "D2" a b = y a b := by
  have hd : net.m.decisions = ["D1", "D2"] := by rw [hm]; rfl
  refine ⟨fun n hU ho => ?_, fun x y hx hy => ?_⟩
  · have hB := hb.move (ds := net.m.decisions) (by rw [hd]; simp) hU ho
    exact ⟨hB.EU1, hB.EU2⟩
  · obtain ⟨n, q1, q2, q3, q4⟩ := hb.deviate1 hx
    obtain ⟨n', r1, r2, r3, r4⟩ := (hb.move (ds := ["D1"]) (by simp) q1 q2).deviate2 hy
    refine ⟨n', r1, ?_, fun a ha => by rw [r3]; exact q3 a ha, r4⟩
    rw [hd]
    exact q2.trans r2 (by simp) (by simp)

/-- **C125** The columns of the tabular utilities are the payoff tables of the documentation, and every pair of strategies can be put in
(for the games with functions as utilities this is C114). -/
theorem C125_tables :
    ∀ t ∈ [(twoAgentTwoPne, false, [[1, 4], [2, 3]], [[1, 2], [4, 3]]), (twoAgentNoPne, false, [[1, 0], [0, 1]], [[0, 1], [1, 0]]),
        (tieBreak, true, [[3, 0], [3, 1]], [[1, 5], [2, 2]])], ∃ net, t.1 = .ok net ∧
      (∀ n, n.Usable → OnlyRules net net.m.decisions n →
        n.EU 0 = expectedPayoff [0, 1] [0, 1] (tableEntry t.2.2.1 [0, 1] [0, 1]) (n.chooses "D1") (n.answers "D1" "D2") ∧
        n.EU 1 = expectedPayoff [0, 1] [0, 1] (tableEntry t.2.2.2 [0, 1] [0, 1]) (n.chooses "D1") (n.answers "D1" "D2")) ∧
      ∀ x y, IsMix [0, 1] x → IsReply t.2.1 [0, 1] [0, 1] y → ∃ n, n.Usable ∧ OnlyRules net net.m.decisions n ∧
        (∀ a ∈ [(0 : Outcome), 1], n.chooses "D1" a = x a) ∧ ∀ a ∈ [(0 : Outcome), 1], ∀ b ∈ [(0 : Outcome), 1], n.answers "D1" "D2" a b = y a b := by
  simp only [List.forall_mem_cons (a := (twoAgentTwoPne, _)), List.forall_mem_cons (a := (twoAgentNoPne, _)), List.forall_mem_cons (a := (tieBreak, _))]
  refine ⟨?_, ?_, ?_, by simp⟩
  · obtain ⟨net, e, hm, hb⟩ := twoPne_board
    exact ⟨net, e, board_tables hm hb⟩
  · obtain ⟨net, e, hm, hb⟩ := noPne_board
    exact ⟨net, e, board_tables hm hb⟩
  · obtain ⟨net, e, hm, hb⟩ := tie_board
    exact ⟨net, e, board_tables hm hb⟩

end Verif

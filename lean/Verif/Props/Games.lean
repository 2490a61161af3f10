import Verif.Lemmas.GamesBuild
import Verif.Props.Relevance
import Mathlib.Tactic.Linarith
import Mathlib.Tactic.NormNum

/-!
# C114: the two-player example games
-/

namespace Verif

open Net Graph Relation Macid

/-- **C114** A two-player game with payoff tables of the right shape can be built for all lists of choices and all payoffs.  Whatever
strategies are put in, the expected utilities are the expected payoffs of the tables. -/
theorem C114_tables {s : Seats} (hs : s = .numbered ∨ s = .couple ∨ s = .counted) (seen : Bool) {l1 l2 : List Outcome} (h1 : l1 ≠ []) (h2 : l2 ≠ [])
    (n1 : l1.Nodup) (n2 : l2.Nodup) {A B : List (List Rat)} (hA : TableShape A l1 l2) (hB : TableShape B l1 l2) :
    ∃ net, tableGame s seen l1 l2 A B = .ok net ∧ net.Usable ∧ net.m.decisions = [s.d1, s.d2] ∧
      (net.m.role s.d1 = .decision s.p1 ∧ net.m.role s.d2 = .decision s.p2 ∧ net.m.role s.u1 = .utility s.p1 ∧ net.m.role s.u2 = .utility s.p2) ∧
      net.dom s.d1 = l1 ∧ net.dom s.d2 = l2 ∧
      ∀ n, n.Usable → OnlyRules net net.m.decisions n → IsMix l1 (n.chooses s.d1) ∧ IsReply seen l1 l2 (n.answers s.d1 s.d2) ∧
        n.EU s.p1 = expectedPayoff l1 l2 (tableEntry A l1 l2) (n.chooses s.d1) (n.answers s.d1 s.d2) ∧
        n.EU s.p2 = expectedPayoff l1 l2 (tableEntry B l1 l2) (n.chooses s.d1) (n.answers s.d1 s.d2) := by
  obtain ⟨net, e, hm, hb⟩ := tableGame_board hs seen h1 h2 n1 n2 hA hB
  have hd : net.m.decisions = [s.d1, s.d2] := by rw [hm]; rfl
  refine ⟨net, e, hb.usable, hd, ⟨hb.dec1, hb.dec2, ?_, ?_⟩, hb.dom1, hb.dom2, fun n hU ho => ?_⟩
  · rw [hm]; rcases hs with rfl | rfl | rfl <;> cases seen <;> decide +kernel
  · rw [hm]; rcases hs with rfl | rfl | rfl <;> cases seen <;> decide +kernel
  · have hB := hb.move (ds := net.m.decisions) (by rw [hd]; simp) hU ho
    exact ⟨hB.mix1, hB.reply2, hB.EU1, hB.EU2⟩

/-- **C114** The strategies form a Nash equilibrium of the diagram exactly if they form one of the tables. -/
theorem C114_equilibria {s : Seats} (hs : s = .numbered ∨ s = .couple ∨ s = .counted) (seen : Bool) {l1 l2 : List Outcome} (h1 : l1 ≠ []) (h2 : l2 ≠ [])
    (n1 : l1.Nodup) (n2 : l2.Nodup) {A B : List (List Rat)} (hA : TableShape A l1 l2) (hB : TableShape B l1 l2) {net : Net}
    (hnet : tableGame s seen l1 l2 A B = .ok net) {n : Net} (hU : n.Usable) (ho : OnlyRules net net.m.decisions n) :
    n.NoGain [s.d1, s.d2] [s.p1, s.p2] ↔
      TableEquilibrium seen l1 l2 (tableEntry A l1 l2) (tableEntry B l1 l2) (n.chooses s.d1) (n.answers s.d1 s.d2) := by
  obtain ⟨net', e, hm, hb⟩ := tableGame_board hs seen h1 h2 n1 n2 hA hB
  rw [hnet] at e
  cases e
  have hd : net.m.decisions = [s.d1, s.d2] := by rw [hm]; rfl
  exact (hb.move (ds := net.m.decisions) (by rw [hd]; simp) hU ho).noGain_iff

/-- **C114** Every pair of strategies can be put in. -/
theorem C114_all_strategies {s : Seats} (hs : s = .numbered ∨ s = .couple ∨ s = .counted) (seen : Bool) {l1 l2 : List Outcome} (h1 : l1 ≠ []) (h2 : l2 ≠ [])
    (n1 : l1.Nodup) (n2 : l2.Nodup) {A B : List (List Rat)} (hA : TableShape A l1 l2) (hB : TableShape B l1 l2) {net : Net}
    (hnet : tableGame s seen l1 l2 A B = .ok net) {x : Outcome → Rat} {y : Outcome → Outcome → Rat} (hx : IsMix l1 x) (hy : IsReply seen l1 l2 y) :
    ∃ n, n.Usable ∧ OnlyRules net net.m.decisions n ∧ (∀ a ∈ l1, n.chooses s.d1 a = x a) ∧ ∀ a ∈ l1, ∀ b ∈ l2, n.answers s.d1 s.d2 a b = y a b := by
  obtain ⟨net', e, hm, hb⟩ := tableGame_board hs seen h1 h2 n1 n2 hA hB
  rw [hnet] at e
  cases e
  have hd : net.m.decisions = [s.d1, s.d2] := by rw [hm]; rfl
  obtain ⟨n, q1, q2, q3, q4⟩ := hb.deviate1 hx
  obtain ⟨n', r1, r2, r3, r4⟩ := (hb.move (ds := [s.d1]) (by simp) q1 q2).deviate2 hy
  refine ⟨n', r1, ?_, fun a ha => by rw [r3]; exact q3 a ha, r4⟩
  rw [hd]
  exact q2.trans r2 (by simp) (by simp)

theorem payoff2 (F : Outcome → Outcome → Rat) (x : Outcome → Rat) (y : Outcome → Outcome → Rat) :
    expectedPayoff [0, 1] [0, 1] F x y = x 0 * y 0 0 * F 0 0 + x 0 * y 0 1 * F 0 1 + (x 1 * y 1 0 * F 1 0 + x 1 * y 1 1 * F 1 1) := by
  simp [expectedPayoff]

theorem mix2 (x : Outcome → Rat) : IsMix [0, 1] x ↔ 0 ≤ x 0 ∧ 0 ≤ x 1 ∧ x 0 + x 1 = 1 := by
  simp [IsMix, and_assoc]

/-- best replies of the first player: compare with the two rows -/
theorem first2 {A : Outcome → Outcome → Rat} {x : Outcome → Rat} {y : Outcome → Outcome → Rat} :
    (∀ x', IsMix [0, 1] x' → expectedPayoff [0, 1] [0, 1] A x' y ≤ expectedPayoff [0, 1] [0, 1] A x y) ↔
      (y 0 0 * A 0 0 + y 0 1 * A 0 1 ≤ expectedPayoff [0, 1] [0, 1] A x y) ∧ (y 1 0 * A 1 0 + y 1 1 * A 1 1 ≤ expectedPayoff [0, 1] [0, 1] A x y) := by
  generalize expectedPayoff [0, 1] [0, 1] A x y = V
  constructor
  · intro h
    have h0 := h (fun a => if a = 0 then 1 else 0) (by rw [mix2]; norm_num)
    have h1 := h (fun a => if a = 0 then 0 else 1) (by rw [mix2]; norm_num)
    rw [payoff2] at h0 h1
    norm_num at h0 h1
    exact ⟨h0, h1⟩
  · rintro ⟨h0, h1⟩ x' hx
    rw [mix2] at hx
    obtain ⟨a, b, c⟩ := hx
    rw [payoff2]
    have e : V = x' 0 * V + x' 1 * V := by rw [← add_mul, c, one_mul]
    have := mul_le_mul_of_nonneg_left h0 a
    have := mul_le_mul_of_nonneg_left h1 b
    linarith

/-- best replies of a second player who does not see the choice of the first -/
theorem second2 {B : Outcome → Outcome → Rat} {x : Outcome → Rat} {y : Outcome → Outcome → Rat} :
    (∀ y', IsReply false [0, 1] [0, 1] y' → expectedPayoff [0, 1] [0, 1] B x y' ≤ expectedPayoff [0, 1] [0, 1] B x y) ↔
      (x 0 * B 0 0 + x 1 * B 1 0 ≤ expectedPayoff [0, 1] [0, 1] B x y) ∧ (x 0 * B 0 1 + x 1 * B 1 1 ≤ expectedPayoff [0, 1] [0, 1] B x y) := by
  generalize expectedPayoff [0, 1] [0, 1] B x y = V
  constructor
  · intro h
    have h0 := h (fun _ b => if b = 0 then 1 else 0) ⟨fun a _ => by rw [mix2]; norm_num, by simp⟩
    have h1 := h (fun _ b => if b = 0 then 0 else 1) ⟨fun a _ => by rw [mix2]; norm_num, by simp⟩
    rw [payoff2] at h0 h1
    norm_num at h0 h1
    exact ⟨h0, h1⟩
  · rintro ⟨h0, h1⟩ y' ⟨hy1, hy2⟩
    obtain ⟨a, b, c⟩ := (mix2 _).1 (hy1 0 (by simp))
    rw [payoff2, hy2 rfl 1 0 0, hy2 rfl 1 0 1]
    have e : V = y' 0 0 * V + y' 0 1 * V := by rw [← add_mul, c, one_mul]
    have := mul_le_mul_of_nonneg_left h0 a
    have := mul_le_mul_of_nonneg_left h1 b
    linarith

/-- best replies of a second player who sees the choice of the first: compare with the best reply to either choice -/
theorem second2_seen {B : Outcome → Outcome → Rat} {x : Outcome → Rat} (hx : IsMix [0, 1] x) {y : Outcome → Outcome → Rat} :
    (∀ y', IsReply true [0, 1] [0, 1] y' → expectedPayoff [0, 1] [0, 1] B x y' ≤ expectedPayoff [0, 1] [0, 1] B x y) ↔
      (x 0 * B 0 0 + x 1 * B 1 0 ≤ expectedPayoff [0, 1] [0, 1] B x y) ∧ (x 0 * B 0 1 + x 1 * B 1 1 ≤ expectedPayoff [0, 1] [0, 1] B x y) ∧
      (x 0 * B 0 0 + x 1 * B 1 1 ≤ expectedPayoff [0, 1] [0, 1] B x y) ∧ (x 0 * B 0 1 + x 1 * B 1 0 ≤ expectedPayoff [0, 1] [0, 1] B x y) := by
  generalize expectedPayoff [0, 1] [0, 1] B x y = V
  constructor
  · intro h
    have h0 := h (fun _ b => if b = 0 then 1 else 0) ⟨fun a _ => by rw [mix2]; norm_num, by simp⟩
    have h1 := h (fun _ b => if b = 0 then 0 else 1) ⟨fun a _ => by rw [mix2]; norm_num, by simp⟩
    have h2 := h (fun a b => if b = a then 1 else 0) ⟨fun a ha => by
      rw [mix2]
      simp only [List.mem_cons, List.not_mem_nil, or_false] at ha
      rcases ha with rfl | rfl <;> norm_num, by simp⟩
    have h3 := h (fun a b => if b = a then 0 else 1) ⟨fun a ha => by
      rw [mix2]
      simp only [List.mem_cons, List.not_mem_nil, or_false] at ha
      rcases ha with rfl | rfl <;> norm_num, by simp⟩
    rw [payoff2] at h0 h1 h2 h3
    norm_num at h0 h1 h2 h3
    exact ⟨h0, h1, h2, h3⟩
  · rintro ⟨h0, h1, h2, h3⟩ y' ⟨hy1, _⟩
    obtain ⟨a, b, c⟩ := (mix2 _).1 (hy1 0 (by simp))
    obtain ⟨a', b', c'⟩ := (mix2 _).1 (hy1 1 (by simp))
    obtain ⟨p0, p1, p2⟩ := (mix2 _).1 hx
    rw [payoff2]
    have e0 : y' 0 1 = 1 - y' 0 0 := by linarith
    have e1 : y' 1 1 = 1 - y' 1 0 := by linarith
    rw [e0] at b ⊢
    rw [e1] at b' ⊢
    have k0 := mul_le_mul_of_nonneg_left h0 (mul_nonneg a a')
    have k1 := mul_le_mul_of_nonneg_left h1 (mul_nonneg b b')
    have k2 := mul_le_mul_of_nonneg_left h2 (mul_nonneg a b')
    have k3 := mul_le_mul_of_nonneg_left h3 (mul_nonneg b a')
    nlinarith [k0, k1, k2, k3]

/-- the entries of a table with two rows and two columns -/
theorem entry2 (a b c d : Rat) : tableEntry [[a, b], [c, d]] [0, 1] [0, 1] 0 0 = a ∧ tableEntry [[a, b], [c, d]] [0, 1] [0, 1] 0 1 = b ∧
    tableEntry [[a, b], [c, d]] [0, 1] [0, 1] 1 0 = c ∧ tableEntry [[a, b], [c, d]] [0, 1] [0, 1] 1 1 = d := by
  have i0 : ([0, 1] : List Rat).idxOf 0 = 0 := by decide +kernel
  have i1 : ([0, 1] : List Rat).idxOf 1 = 1 := by decide +kernel
  refine ⟨?_, ?_, ?_, ?_⟩ <;> simp [tableEntry, i0, i1]

theorem shape2 (a b c d : Rat) : TableShape [[a, b], [c, d]] [0, 1] [0, 1] := by
  simp [TableShape]

theorem board_simultaneous2 {s : Seats} {F G : Outcome → Outcome → Rat} {net : Net} (hd : net.m.decisions = [s.d1, s.d2])
    (hb : Board net s.d1 s.d2 s.u1 s.u2 s.p1 s.p2 false [0, 1] [0, 1] F G) {n : Net} (hU : n.Usable) (ho : OnlyRules net net.m.decisions n) :
    ∃ p q, 0 ≤ p ∧ p ≤ 1 ∧ 0 ≤ q ∧ q ≤ 1 ∧ n.chooses s.d1 0 = p ∧ n.chooses s.d1 1 = 1 - p ∧
        n.chooses s.d2 0 = q ∧ n.chooses s.d2 1 = 1 - q ∧
        (n.NoGain [s.d1, s.d2] [s.p1, s.p2] ↔ (1 - p) * ((q * F 0 0 + (1 - q) * F 0 1) - (q * F 1 0 + (1 - q) * F 1 1)) ≤ 0 ∧ p * ((q * F 1 0 + (1 - q) * F 1 1) - (q * F 0 0 + (1 - q) * F 0 1)) ≤ 0 ∧
          (1 - q) * ((p * (G 0 0) + (1 - p) * (G 1 0)) - (p * (G 0 1) + (1 - p) * (G 1 1))) ≤ 0 ∧ q * ((p * (G 0 1) + (1 - p) * (G 1 1)) - (p * (G 0 0) + (1 - p) * (G 1 0))) ≤ 0) := by
  have hB := hb.move (ds := net.m.decisions) (by rw [hd]; simp) hU ho
  obtain ⟨x0, x1, x2⟩ := (mix2 _).1 hB.mix1
  obtain ⟨r1, r2⟩ := hB.reply2
  obtain ⟨y0, y1, y2⟩ := (mix2 _).1 (r1 0 (by simp))
  have hans : ∀ a b, n.answers s.d1 s.d2 a b = n.chooses s.d2 b := by
    intro a b
    unfold answers chooses
    apply kernel_depends hU.good hB.mem2
    rintro v (rfl | e)
    · simp
    · exact absurd ((hB.parents2 v).1 e).1 (by simp)
  simp only [hans] at y0 y1 y2
  refine ⟨n.chooses s.d1 0, n.chooses s.d2 0, x0, by linarith, y0, by linarith, rfl, by linarith, rfl, by linarith, ?_⟩
  rw [hB.noGain_iff, TableEquilibrium, first2, second2]
  simp only [payoff2, hans]
  have ex : n.chooses s.d1 1 = 1 - n.chooses s.d1 0 := by linarith
  have ey : n.chooses s.d2 1 = 1 - n.chooses s.d2 0 := by linarith
  rw [ex, ey]
  generalize n.chooses s.d1 0 = p
  generalize n.chooses s.d2 0 = q
  constructor
  · rintro ⟨⟨k1, k2⟩, k3, k4⟩
    refine ⟨?_, ?_, ?_, ?_⟩ <;> nlinarith
  · rintro ⟨k1, k2, k3, k4⟩
    refine ⟨⟨?_, ?_⟩, ?_, ?_⟩ <;> nlinarith

/-- a game with two choices for each player, neither seeing the choice of the other -/
theorem simultaneous2 {s : Seats} (hs : s = .numbered ∨ s = .couple ∨ s = .counted) {a b c d a' b' c' d' : Rat} :
    ∃ net, tableGame s false [0, 1] [0, 1] [[a, b], [c, d]] [[a', b'], [c', d']] = .ok net ∧ net.Usable ∧
      ∀ n, n.Usable → OnlyRules net net.m.decisions n → ∃ p q, 0 ≤ p ∧ p ≤ 1 ∧ 0 ≤ q ∧ q ≤ 1 ∧ n.chooses s.d1 0 = p ∧ n.chooses s.d1 1 = 1 - p ∧
        n.chooses s.d2 0 = q ∧ n.chooses s.d2 1 = 1 - q ∧
        (n.NoGain [s.d1, s.d2] [s.p1, s.p2] ↔ (1 - p) * ((q * a + (1 - q) * b) - (q * c + (1 - q) * d)) ≤ 0 ∧ p * ((q * c + (1 - q) * d) - (q * a + (1 - q) * b)) ≤ 0 ∧
          (1 - q) * ((p * a' + (1 - p) * c') - (p * b' + (1 - p) * d')) ≤ 0 ∧ q * ((p * b' + (1 - p) * d') - (p * a' + (1 - p) * c')) ≤ 0) := by
  obtain ⟨net, e, hm, hb⟩ := tableGame_board hs false (l1 := [0, 1]) (l2 := [0, 1]) (by simp) (by simp) (by decide +kernel) (by decide +kernel)
    (shape2 a b c d) (shape2 a' b' c' d')
  have hd : net.m.decisions = [s.d1, s.d2] := by rw [hm]; rfl
  refine ⟨net, e, hb.usable, fun n hU ho => ?_⟩
  have := board_simultaneous2 hd hb hU ho
  simpa only [(entry2 a b c d).1, (entry2 a b c d).2.1, (entry2 a b c d).2.2.1, (entry2 a b c d).2.2.2,
    (entry2 a' b' c' d').1, (entry2 a' b' c' d').2.1, (entry2 a' b' c' d').2.2.1, (entry2 a' b' c' d').2.2.2] using this

/-- **C114** `prisoners_dilemma` can be built.  Among all strategies, mixed ones included, there is exactly one equilibrium: both defect. -/
theorem C114_prisoners_dilemma : ∃ net, prisonersDilemma = .ok net ∧ net.Usable ∧ ∀ n, n.Usable → OnlyRules net net.m.decisions n →
    (n.NoGain ["D1", "D2"] [1, 2] ↔ n.chooses "D1" 1 = 1 ∧ n.chooses "D2" 1 = 1) := by
  obtain ⟨net, h1, h2, h3⟩ := simultaneous2 (s := .numbered) (.inl rfl) (a := -1) (b := -3) (c := 0) (d := -2) (a' := -1) (b' := 0) (c' := -3) (d' := -2)
  refine ⟨net, h1, h2, fun n hU ho => ?_⟩
  obtain ⟨p, q, p0, p1, q0, q1, -, e2, -, e4, e5⟩ := h3 n hU ho
  rw [show n.NoGain ["D1", "D2"] [1, 2] ↔ _ from e5, show n.chooses "D1" 1 = _ from e2, show n.chooses "D2" 1 = _ from e4]
  constructor
  · rintro ⟨k1, k2, k3, k4⟩
    constructor <;> nlinarith
  · rintro ⟨k1, k2⟩
    have hp : p = 0 := by linarith
    have hq : q = 0 := by linarith
    subst hp hq
    norm_num

/-- **C114** `matching_pennies` has exactly one equilibrium: both players choose either side with probability one half. -/
theorem C114_matching_pennies : ∃ net, matchingPennies = .ok net ∧ net.Usable ∧ ∀ n, n.Usable → OnlyRules net net.m.decisions n →
    (n.NoGain ["D1", "D2"] [1, 2] ↔ n.chooses "D1" 0 = 1 / 2 ∧ n.chooses "D2" 0 = 1 / 2) := by
  obtain ⟨net, h1, h2, h3⟩ := simultaneous2 (s := .numbered) (.inl rfl) (a := 1) (b := -1) (c := -1) (d := 1) (a' := -1) (b' := 1) (c' := 1) (d' := -1)
  refine ⟨net, h1, h2, fun n hU ho => ?_⟩
  obtain ⟨p, q, p0, p1, q0, q1, e1, -, e3, -, e5⟩ := h3 n hU ho
  rw [show n.NoGain ["D1", "D2"] [1, 2] ↔ _ from e5, show n.chooses "D1" 0 = _ from e1, show n.chooses "D2" 0 = _ from e3]
  constructor
  · rintro ⟨k1, k2, k3, k4⟩
    have hp : p = 1 / 2 := by
      rcases lt_trichotomy p (1 / 2) with h | h | h
      · have : q = 1 := by nlinarith
        subst this
        nlinarith
      · exact h
      · have : q = 0 := by nlinarith
        subst this
        nlinarith
    subst hp
    refine ⟨rfl, ?_⟩
    linarith
  · rintro ⟨rfl, rfl⟩
    norm_num

/-- **C114** `battle_of_the_sexes` has exactly three equilibria: both at the opera, both at the football match, and one where the row
player goes to the opera with probability 0.6 and the column player with probability 0.4. -/
theorem C114_battle_of_the_sexes : ∃ net, battleOfTheSexes = .ok net ∧ net.Usable ∧ ∀ n, n.Usable → OnlyRules net net.m.decisions n →
    (n.NoGain ["D_F", "D_M"] [1, 2] ↔ (n.chooses "D_F" 0 = 1 ∧ n.chooses "D_M" 0 = 1) ∨ (n.chooses "D_F" 0 = 0 ∧ n.chooses "D_M" 0 = 0) ∨
      (n.chooses "D_F" 0 = 3 / 5 ∧ n.chooses "D_M" 0 = 2 / 5)) := by
  obtain ⟨net, h1, h2, h3⟩ := simultaneous2 (s := .couple) (.inr (.inl rfl)) (a := 3) (b := 0) (c := 0) (d := 2) (a' := 2) (b' := 0) (c' := 0) (d' := 3)
  refine ⟨net, h1, h2, fun n hU ho => ?_⟩
  obtain ⟨p, q, p0, p1, q0, q1, e1, -, e3, -, e5⟩ := h3 n hU ho
  rw [show n.NoGain ["D_F", "D_M"] [1, 2] ↔ _ from e5, show n.chooses "D_F" 0 = _ from e1, show n.chooses "D_M" 0 = _ from e3]
  constructor
  · rintro ⟨k1, k2, k3, k4⟩
    rcases eq_or_lt_of_le p0 with h | h
    · subst h
      refine .inr (.inl ⟨rfl, ?_⟩)
      linarith
    · rcases eq_or_lt_of_le p1 with h' | h'
      · subst h'
        refine .inl ⟨rfl, ?_⟩
        linarith
      · refine .inr (.inr ?_)
        have hq : q = 2 / 5 := by
          apply le_antisymm <;> nlinarith
        subst hq
        refine ⟨?_, rfl⟩
        linarith
  · rintro (⟨rfl, rfl⟩ | ⟨rfl, rfl⟩ | ⟨rfl, rfl⟩) <;> norm_num

/-- who relies on whom when the second player sees the choice of the first -/
theorem boardM_relies {s : Seats} (hs : s = .numbered ∨ s = .couple ∨ s = .counted) :
    (boardM s true).RReach s.d1 s.d2 ∧ ¬ (boardM s true).RReach s.d2 s.d1 := by
  have hc := (boardM_facts hs true).1
  have hn : NamesOk (boardM s true).g := by
    rcases hs with rfl | rfl | rfl <;> exact ⟨by decide +kernel, by decide +kernel⟩
  have hp : ∀ d ∈ [s.d1, s.d2], (boardM s true).Playable d := by
    intro d hd
    simp only [List.mem_cons, List.not_mem_nil, or_false] at hd
    rcases hd with rfl | rfl
    · exact ⟨s.p1, by rcases hs with rfl | rfl | rfl <;> decide +kernel, by rcases hs with rfl | rfl | rfl <;> decide +kernel⟩
    · exact ⟨s.p2, by rcases hs with rfl | rfl | rfl <;> decide +kernel, by rcases hs with rfl | rfl | rfl <;> decide +kernel⟩
  constructor
  · obtain ⟨b, e1, e2⟩ := C18_is_r_reachable _ hc hn (fun _ => 0) [s.d1] [s.d2] (fun d hd => hp d (by simp only [List.mem_singleton] at hd; simp [hd]))
      (fun v hv => by simp only [List.mem_singleton] at hv; rw [hv, boardM_nodes]; simp)
    have : b = true := by
      have q : isRReachable (fun _ => 0) (boardM s true) [s.d1] [s.d2] = .ok true := by
        rcases hs with rfl | rfl | rfl <;> decide +kernel
      rw [q] at e1
      cases e1
      rfl
    obtain ⟨d, hd, v, hv, q⟩ := e2.1 this
    simp only [List.mem_singleton] at hd hv
    rw [hd, hv] at q
    exact q
  · intro h
    obtain ⟨b, e1, e2⟩ := C18_is_r_reachable _ hc hn (fun _ => 0) [s.d2] [s.d1] (fun d hd => hp d (by simp only [List.mem_singleton] at hd; simp [hd]))
      (fun v hv => by simp only [List.mem_singleton] at hv; rw [hv, boardM_nodes]; simp)
    have q : isRReachable (fun _ => 0) (boardM s true) [s.d2] [s.d1] = .ok false := by
      rcases hs with rfl | rfl | rfl <;> decide +kernel
    rw [q] at e1
    cases e1
    exact absurd (e2.2 ⟨_, by simp, _, by simp, h⟩) (by simp)

theorem expectedPayoff_rows (l1 l2 : List Outcome) (B : Outcome → Outcome → Rat) (x : Outcome → Rat) (y : Outcome → Outcome → Rat) :
    expectedPayoff l1 l2 B x y = (l1.map (fun a => x a * replyPayoff l2 B a (y a))).sum := by
  unfold expectedPayoff replyPayoff
  congr 1
  apply List.map_congr_left
  intro a _
  rw [← List.sum_map_mul_left]
  congr 1
  apply List.map_congr_left
  intro b _
  ring

theorem sum_point {l : List Outcome} (hn : l.Nodup) {a : Outcome} (ha : a ∈ l) (f : Outcome → Rat) :
    (l.map (fun b => (if b = a then 1 else 0) * f b)).sum = f a := by
  induction l with
  | nil => simp at ha
  | cons c l ih =>
    rw [List.nodup_cons] at hn
    simp only [List.map_cons, List.sum_cons]
    by_cases e : c = a
    · subst e
      have : l.map (fun b => (if b = c then 1 else 0) * f b) = l.map (fun _ => (0 : Rat)) := by
        apply List.map_congr_left
        intro b hb
        have : b ≠ c := fun e => hn.1 (e ▸ hb)
        simp [this]
      rw [this]
      simp
    · have : a ∈ l := by simpa [Ne.symm e] using ha
      rw [ih hn.2 this]
      simp [e]

theorem board_subgame_perfect {s : Seats} (hs : s = .numbered ∨ s = .couple ∨ s = .counted) {l1 l2 : List Outcome} (n1 : l1.Nodup)
    {F G : Outcome → Outcome → Rat} {net : Net} (hm : net.m = boardM s true) (hb0 : Board net s.d1 s.d2 s.u1 s.u2 s.p1 s.p2 true l1 l2 F G)
    {n : Net} (hU : n.Usable) (ho : OnlyRules net net.m.decisions n) :
    n.SubgamePerfect ↔
      (∀ a ∈ l1, ∀ z, IsMix l2 z → replyPayoff l2 G a z ≤ replyPayoff l2 G a (n.answers s.d1 s.d2 a)) ∧
      (∀ x', IsMix l1 x' → expectedPayoff l1 l2 F x' (n.answers s.d1 s.d2) ≤
        expectedPayoff l1 l2 F (n.chooses s.d1) (n.answers s.d1 s.d2)) := by
  have hd : net.m.decisions = [s.d1, s.d2] := by rw [hm]; rfl
  have hb := hb0.move (ds := net.m.decisions) (by rw [hd]; simp) hU ho
  have hnm : n.m = boardM s true := by rw [ho.m, hm]
  have hdn : n.m.decisions = [s.d1, s.d2] := by rw [hnm]; rfl
  obtain ⟨rel1, rel2⟩ := boardM_relies hs
  obtain ⟨k1, k2, k3, k4, k5, k6⟩ := hb.ne
  have hag : s.p1 ≠ s.p2 := hb.agents
  constructor
  · intro hsp
    constructor
    · intro a ha z hz
      obtain ⟨m1, m1U, m1o, m1x, m1y⟩ := hb.deviate1 (x := fun b => if b = a then 1 else 0) ⟨fun b _ => by by_cases q : b = a <;> simp [q], by
        have := sum_point n1 ha (fun _ => 1)
        simpa using this⟩
      have hb1 := hb.move (ds := [s.d1]) (by simp) m1U m1o
      obtain ⟨m2, m2U, m2o, m2x, m2y⟩ := hb1.deviate2 (y := fun a' => if a' = a then z else n.answers s.d1 s.d2 a')
        ⟨fun a' ha' => by
          by_cases q : a' = a
          · simp only [if_pos q]; exact hz
          · simp only [if_neg q]; exact hb.reply2.1 a' ha', by simp⟩
      have hb2 := hb1.move (ds := [s.d2]) (by simp) m2U m2o
      have hself : n.m.SelfContained [s.d2] := by
        intro x hx y hy hr
        rw [List.mem_singleton] at hx
        subst hx
        rw [hdn] at hy
        rw [hnm] at hr
        simp only [List.mem_cons, List.not_mem_nil, or_false] at hy
        rcases hy with rfl | rfl
        · exact absurd hr rel2
        · simp
      have hf : (n.m.decisions.filter (fun d => decide (d ∉ [s.d2]))) = [s.d1] := by
        rw [hdn]
        simp [List.filter, k1]
      have hf2 : ([s.d2].filter (fun d => decide (n.m.role d = .decision s.p2))) = [s.d2] := by
        simp [List.filter, hb.dec2]
      have := hsp [s.d2] hself m1 m1U (by rw [hf]; exact m1o) s.p2 m2 m2U (by rw [hf2]; exact m2o)
      rw [hb1.EU2, hb2.EU2, expectedPayoff_rows, expectedPayoff_rows] at this
      rw [List.map_congr_left (g := fun b => (if b = a then 1 else 0) * replyPayoff l2 G b (m2.answers s.d1 s.d2 b))
        (fun b hb' => by rw [m2x, m1x b hb']), sum_point n1 ha,
        List.map_congr_left (g := fun b => (if b = a then 1 else 0) * replyPayoff l2 G b (m1.answers s.d1 s.d2 b))
        (fun b hb' => by rw [m1x b hb']), sum_point n1 ha] at this
      have e1 : replyPayoff l2 G a (m2.answers s.d1 s.d2 a) = replyPayoff l2 G a z := by
        unfold replyPayoff
        congr 1
        apply List.map_congr_left
        intro b hb'
        rw [m2y a ha b hb', if_pos rfl]
      have e2 : replyPayoff l2 G a (m1.answers s.d1 s.d2 a) = replyPayoff l2 G a (n.answers s.d1 s.d2 a) := by
        unfold replyPayoff
        congr 1
        apply List.map_congr_left
        intro b _
        rw [m1y]
      rw [e1, e2] at this
      exact this
    · have hng : n.NoGain [s.d1, s.d2] [s.p1, s.p2] := by
        intro agent _ m' mU mo
        refine hsp [s.d1, s.d2] (fun x _ y hy _ => by rw [hdn] at hy; exact hy) n hU (OnlyRules.rfl' _ _) agent m' mU mo
      exact (hb.noGain_iff.1 hng).1
  · rintro ⟨c2, c1⟩ S hS m1 m1U m1o agent m2 m2U m2o
    have hb1 := hb.move (ds := n.m.decisions.filter (fun d => decide (d ∉ S))) (by
      intro v hv
      have := List.mem_of_mem_filter hv
      rw [hdn] at this
      simpa using this) m1U m1o
    have hsub : ∀ v ∈ S.filter (fun d => decide (n.m.role d = .decision agent)), (v = s.d1 ∧ agent = s.p1) ∨ (v = s.d2 ∧ agent = s.p2) := by
      intro v hv
      have hr : n.m.role v = .decision agent := by simpa using (List.mem_filter.1 hv).2
      have hv' : v ∈ n.m.decisions := decisions_role.2 ⟨agent, hr⟩
      rw [hdn] at hv'
      simp only [List.mem_cons, List.not_mem_nil, or_false] at hv'
      rcases hv' with rfl | rfl
      · rw [hb.dec1] at hr; cases hr; exact .inl ⟨rfl, rfl⟩
      · rw [hb.dec2] at hr; cases hr; exact .inr ⟨rfl, rfl⟩
    have hb2 := hb1.move (ds := S.filter (fun d => decide (n.m.role d = .decision agent))) (fun v hv => by
      rcases hsub v hv with ⟨q, _⟩ | ⟨q, _⟩
      · exact .inl q
      · exact .inr q) m2U m2o
    by_cases a1 : agent = s.p1
    · subst a1
      have hd2 : s.d2 ∉ S.filter (fun d => decide (n.m.role d = .decision s.p1)) := by
        intro q
        rcases hsub _ q with ⟨q, _⟩ | ⟨_, q⟩
        · exact k1 q.symm
        · exact hag q
      have ey : ∀ a b, m2.answers s.d1 s.d2 a b = m1.answers s.d1 s.d2 a b := fun a b => by unfold answers; rw [m2o.kernel hd2]
      rw [hb1.EU1, hb2.EU1]
      by_cases q : s.d1 ∈ S
      · have q2 : s.d2 ∈ S := hS _ q s.d2 (by rw [hdn]; simp) (by rw [hnm]; exact rel1)
        have r1 : s.d1 ∉ n.m.decisions.filter (fun d => decide (d ∉ S)) := by simp [q]
        have r2 : s.d2 ∉ n.m.decisions.filter (fun d => decide (d ∉ S)) := by simp [q2]
        have ex1 : ∀ a, m1.chooses s.d1 a = n.chooses s.d1 a := fun a => by unfold chooses; rw [m1o.kernel r1]
        have ey1 : ∀ a b, m1.answers s.d1 s.d2 a b = n.answers s.d1 s.d2 a b := fun a b => by unfold answers; rw [m1o.kernel r2]
        rw [Board.payoff_congr (x' := m2.chooses s.d1) (y' := n.answers s.d1 s.d2) (fun _ _ => rfl) (fun a _ b _ => by rw [ey, ey1]),
          Board.payoff_congr (x := m1.chooses s.d1) (x' := n.chooses s.d1) (y' := n.answers s.d1 s.d2) (fun a _ => ex1 a) (fun a _ b _ => ey1 a b)]
        exact c1 _ hb2.mix1
      · have r1 : s.d1 ∉ S.filter (fun d => decide (n.m.role d = .decision s.p1)) := fun h => q (List.mem_of_mem_filter h)
        exact le_of_eq (Board.payoff_congr (fun a _ => by unfold chooses; rw [m2o.kernel r1]) (fun a _ b _ => ey a b))
    · by_cases a2 : agent = s.p2
      · subst a2
        have hd1 : s.d1 ∉ S.filter (fun d => decide (n.m.role d = .decision s.p2)) := by
          intro q
          rcases hsub _ q with ⟨_, q⟩ | ⟨q, _⟩
          · exact hag q.symm
          · exact k1 q
        have ex : ∀ a, m2.chooses s.d1 a = m1.chooses s.d1 a := fun a => by unfold chooses; rw [m2o.kernel hd1]
        rw [hb1.EU2, hb2.EU2]
        by_cases q : s.d2 ∈ S
        · have r2 : s.d2 ∉ n.m.decisions.filter (fun d => decide (d ∉ S)) := by simp [q]
          have ey1 : ∀ a, m1.answers s.d1 s.d2 a = n.answers s.d1 s.d2 a := fun a => by
            funext b
            unfold answers
            rw [m1o.kernel r2]
          rw [expectedPayoff_rows, expectedPayoff_rows]
          apply List.sum_le_sum
          intro a ha
          rw [ex, ey1]
          exact mul_le_mul_of_nonneg_left (c2 a ha _ (hb2.reply2.1 a ha)) (hb1.mix1.1 a ha)
        · have r2 : s.d2 ∉ S.filter (fun d => decide (n.m.role d = .decision s.p2)) := fun h => q (List.mem_of_mem_filter h)
          exact le_of_eq (Board.payoff_congr (fun a _ => ex a) (fun a _ b _ => by unfold answers; rw [m2o.kernel r2]))
      · have hz : ∀ {N : Net}, N.Usable → N.m = boardM s true → N.EU agent = 0 := by
          intro N hN hNm
          unfold EU
          have : (boardM s true).agentUtilities.get? agent = none := by
            simp [boardM, Dict.get?, Ne.symm a1, Ne.symm a2]
          rw [hNm, this]
          simp
        rw [hz m1U (by rw [m1o.m, hnm]), hz m2U (by rw [m2o.m, m1o.m, hnm])]

/-- **C114** When the second player sees the choice of the first, the strategies are subgame perfect exactly if the second player replies
as well as possible to every choice, taken or not, and the first player makes the best of these replies. -/
theorem C114_subgame_perfect {s : Seats} (hs : s = .numbered ∨ s = .couple ∨ s = .counted) {l1 l2 : List Outcome} (h1 : l1 ≠ []) (h2 : l2 ≠ [])
    (n1 : l1.Nodup) (n2 : l2.Nodup) {A B : List (List Rat)} (hA : TableShape A l1 l2) (hB : TableShape B l1 l2) {net : Net}
    (hnet : tableGame s true l1 l2 A B = .ok net) {n : Net} (hU : n.Usable) (ho : OnlyRules net net.m.decisions n) :
    n.SubgamePerfect ↔
      (∀ a ∈ l1, ∀ z, IsMix l2 z → replyPayoff l2 (tableEntry B l1 l2) a z ≤ replyPayoff l2 (tableEntry B l1 l2) a (n.answers s.d1 s.d2 a)) ∧
      (∀ x', IsMix l1 x' → expectedPayoff l1 l2 (tableEntry A l1 l2) x' (n.answers s.d1 s.d2) ≤
        expectedPayoff l1 l2 (tableEntry A l1 l2) (n.chooses s.d1) (n.answers s.d1 s.d2)) := by
  obtain ⟨net', e, hm, hb0⟩ := tableGame_board hs true h1 h2 n1 n2 hA hB
  rw [hnet] at e
  cases e
  exact board_subgame_perfect hs n1 hm hb0 hU ho

/-- best replies to a choice, taken or not -/
theorem reply2_best {B : Outcome → Outcome → Rat} {a : Outcome} {y : Outcome → Rat} :
    (∀ z, IsMix [0, 1] z → replyPayoff [0, 1] B a z ≤ replyPayoff [0, 1] B a y) ↔
      B a 0 ≤ replyPayoff [0, 1] B a y ∧ B a 1 ≤ replyPayoff [0, 1] B a y := by
  generalize replyPayoff [0, 1] B a y = V
  constructor
  · intro h
    have h0 := h (fun b => if b = 0 then 1 else 0) (by rw [mix2]; norm_num)
    have h1 := h (fun b => if b = 0 then 0 else 1) (by rw [mix2]; norm_num)
    simp [replyPayoff] at h0 h1
    exact ⟨h0, h1⟩
  · rintro ⟨h0, h1⟩ z hz
    obtain ⟨a', b', c'⟩ := (mix2 _).1 hz
    simp only [replyPayoff, List.map_cons, List.map_nil, List.sum_cons, List.sum_nil, add_zero]
    have e : V = z 0 * V + z 1 * V := by rw [← add_mul, c', one_mul]
    have := mul_le_mul_of_nonneg_left h0 a'
    have := mul_le_mul_of_nonneg_left h1 b'
    linarith

theorem board_sequential2 {s : Seats} (hs : s = .numbered ∨ s = .couple ∨ s = .counted) {F G : Outcome → Outcome → Rat} {net : Net}
    (hm : net.m = boardM s true) (hb : Board net s.d1 s.d2 s.u1 s.u2 s.p1 s.p2 true [0, 1] [0, 1] F G) {n : Net} (hU : n.Usable)
    (ho : OnlyRules net net.m.decisions n) :
    ∃ p q r, 0 ≤ p ∧ p ≤ 1 ∧ 0 ≤ q ∧ q ≤ 1 ∧ 0 ≤ r ∧ r ≤ 1 ∧ n.chooses s.d1 0 = p ∧
        n.answers s.d1 s.d2 0 0 = q ∧ n.answers s.d1 s.d2 1 0 = r ∧
        (n.NoGain [s.d1, s.d2] [s.p1, s.p2] ↔ (1 - p) * ((q * F 0 0 + (1 - q) * F 0 1) - (r * F 1 0 + (1 - r) * F 1 1)) ≤ 0 ∧ p * ((r * F 1 0 + (1 - r) * F 1 1) - (q * F 0 0 + (1 - q) * F 0 1)) ≤ 0 ∧
          p * ((1 - q) * (G 0 0 - G 0 1)) ≤ 0 ∧ p * (q * (G 0 1 - G 0 0)) ≤ 0 ∧ (1 - p) * ((1 - r) * (G 1 0 - G 1 1)) ≤ 0 ∧ (1 - p) * (r * (G 1 1 - G 1 0)) ≤ 0) ∧
        (n.SubgamePerfect ↔ (1 - p) * ((q * F 0 0 + (1 - q) * F 0 1) - (r * F 1 0 + (1 - r) * F 1 1)) ≤ 0 ∧ p * ((r * F 1 0 + (1 - r) * F 1 1) - (q * F 0 0 + (1 - q) * F 0 1)) ≤ 0 ∧
          (1 - q) * (G 0 0 - G 0 1) ≤ 0 ∧ q * (G 0 1 - G 0 0) ≤ 0 ∧ (1 - r) * (G 1 0 - G 1 1) ≤ 0 ∧ r * (G 1 1 - G 1 0) ≤ 0) := by
  have hd : net.m.decisions = [s.d1, s.d2] := by rw [hm]; rfl
  have hB := hb.move (ds := net.m.decisions) (by rw [hd]; simp) hU ho
  have hmix := hB.mix1
  obtain ⟨x0, x1, x2⟩ := (mix2 _).1 hB.mix1
  obtain ⟨r1, r2⟩ := hB.reply2
  obtain ⟨y0, y1, y2⟩ := (mix2 _).1 (r1 0 (by simp))
  obtain ⟨z0, z1, z2⟩ := (mix2 _).1 (r1 1 (by simp))
  have ex : n.chooses s.d1 1 = 1 - n.chooses s.d1 0 := by linarith
  have ey : n.answers s.d1 s.d2 0 1 = 1 - n.answers s.d1 s.d2 0 0 := by linarith
  have ez : n.answers s.d1 s.d2 1 1 = 1 - n.answers s.d1 s.d2 1 0 := by linarith
  refine ⟨n.chooses s.d1 0, n.answers s.d1 s.d2 0 0, n.answers s.d1 s.d2 1 0, x0, by linarith, y0, by linarith, z0, by linarith, rfl, rfl, rfl, ?_, ?_⟩
  · rw [hB.noGain_iff, TableEquilibrium, first2, second2_seen hmix]
    simp only [payoff2]
    rw [ex, ey, ez]
    rw [ex] at x1
    rw [ey] at y1
    rw [ez] at z1
    clear ex ey ez x2 y2 z2 r1 r2 hmix hB ho
    generalize n.chooses s.d1 0 = p at *
    generalize n.answers s.d1 s.d2 0 0 = q at *
    generalize n.answers s.d1 s.d2 1 0 = r at *
    constructor
    · rintro ⟨⟨k1, k2⟩, k3, k4, k5, k6⟩
      refine ⟨by nlinarith, by nlinarith, ?_, ?_, ?_, ?_⟩
      · have := mul_le_mul_of_nonneg_left k3 z0
        have := mul_le_mul_of_nonneg_left k5 z1
        nlinarith
      · have := mul_le_mul_of_nonneg_left k6 z0
        have := mul_le_mul_of_nonneg_left k4 z1
        nlinarith
      · have := mul_le_mul_of_nonneg_left k3 y0
        have := mul_le_mul_of_nonneg_left k6 y1
        nlinarith
      · have := mul_le_mul_of_nonneg_left k5 y0
        have := mul_le_mul_of_nonneg_left k4 y1
        nlinarith
    · rintro ⟨k1, k2, k3, k4, k5, k6⟩
      refine ⟨⟨?_, ?_⟩, ?_, ?_, ?_, ?_⟩ <;> nlinarith
  · rw [board_subgame_perfect hs (by decide +kernel) hm hb hU ho, first2]
    simp only [List.mem_cons, List.not_mem_nil, or_false, forall_eq_or_imp, forall_eq, reply2_best]
    simp only [payoff2, replyPayoff, List.map_cons, List.map_nil, List.sum_cons, List.sum_nil, add_zero]
    rw [ex, ey, ez]
    clear ex ey ez x2 y2 z2 r1 r2 hmix hB ho
    generalize n.chooses s.d1 0 = p at *
    generalize n.answers s.d1 s.d2 0 0 = q at *
    generalize n.answers s.d1 s.d2 1 0 = r at *
    constructor
    · rintro ⟨⟨⟨k1, k2⟩, k3, k4⟩, k5, k6⟩
      refine ⟨?_, ?_, ?_, ?_, ?_, ?_⟩ <;> nlinarith
    · rintro ⟨k1, k2, k3, k4, k5, k6⟩
      refine ⟨⟨⟨?_, ?_⟩, ?_, ?_⟩, ?_, ?_⟩ <;> nlinarith

/-- a game with two choices for each player, where the second sees the choice of the first -/
theorem sequential2 {s : Seats} (hs : s = .numbered ∨ s = .couple ∨ s = .counted) {a b c d a' b' c' d' : Rat} :
    ∃ net, tableGame s true [0, 1] [0, 1] [[a, b], [c, d]] [[a', b'], [c', d']] = .ok net ∧ net.Usable ∧
      ∀ n, n.Usable → OnlyRules net net.m.decisions n → ∃ p q r, 0 ≤ p ∧ p ≤ 1 ∧ 0 ≤ q ∧ q ≤ 1 ∧ 0 ≤ r ∧ r ≤ 1 ∧ n.chooses s.d1 0 = p ∧
        n.answers s.d1 s.d2 0 0 = q ∧ n.answers s.d1 s.d2 1 0 = r ∧
        (n.NoGain [s.d1, s.d2] [s.p1, s.p2] ↔ (1 - p) * ((q * a + (1 - q) * b) - (r * c + (1 - r) * d)) ≤ 0 ∧ p * ((r * c + (1 - r) * d) - (q * a + (1 - q) * b)) ≤ 0 ∧
          p * ((1 - q) * (a' - b')) ≤ 0 ∧ p * (q * (b' - a')) ≤ 0 ∧ (1 - p) * ((1 - r) * (c' - d')) ≤ 0 ∧ (1 - p) * (r * (d' - c')) ≤ 0) ∧
        (n.SubgamePerfect ↔ (1 - p) * ((q * a + (1 - q) * b) - (r * c + (1 - r) * d)) ≤ 0 ∧ p * ((r * c + (1 - r) * d) - (q * a + (1 - q) * b)) ≤ 0 ∧
          (1 - q) * (a' - b') ≤ 0 ∧ q * (b' - a') ≤ 0 ∧ (1 - r) * (c' - d') ≤ 0 ∧ r * (d' - c') ≤ 0) := by
  obtain ⟨net, e, hm, hb⟩ := tableGame_board hs true (l1 := [0, 1]) (l2 := [0, 1]) (by simp) (by simp) (by decide +kernel) (by decide +kernel)
    (shape2 a b c d) (shape2 a' b' c' d')
  refine ⟨net, e, hb.usable, fun n hU ho => ?_⟩
  have := board_sequential2 hs hm hb hU ho
  simpa only [(entry2 a b c d).1, (entry2 a b c d).2.1, (entry2 a b c d).2.2.1, (entry2 a b c d).2.2.2,
    (entry2 a' b' c' d').1, (entry2 a' b' c' d').2.1, (entry2 a' b' c' d').2.2.1, (entry2 a' b' c' d').2.2.2] using this

/-- **C114** `taxi_competition`: the first taxi stops at the expensive hotel with probability `p`, the second with probability `q` if the
first did and `r` if it did not.  The equilibria are those with `p = 1` and `q = 0`, whatever `r`, and those with `p = 0`, `r = 1` and `q` at least two thirds.  So besides the three pure equilibria there
are infinitely many mixed ones.  Exactly one of them all is subgame perfect. -/
theorem C114_taxi_competition : ∃ net, taxiCompetition = .ok net ∧ net.Usable ∧ ∀ n, n.Usable → OnlyRules net net.m.decisions n →
    (n.NoGain ["D1", "D2"] [1, 2] ↔ (n.chooses "D1" 0 = 1 ∧ n.answers "D1" "D2" 0 0 = 0) ∨
      (n.chooses "D1" 0 = 0 ∧ n.answers "D1" "D2" 1 0 = 1 ∧ 2 / 3 ≤ n.answers "D1" "D2" 0 0)) ∧
    (n.SubgamePerfect ↔ n.chooses "D1" 0 = 1 ∧ n.answers "D1" "D2" 0 0 = 0 ∧ n.answers "D1" "D2" 1 0 = 1) := by
  obtain ⟨net, h1, h2, h3⟩ := sequential2 (s := .numbered) (.inl rfl) (a := 2) (b := 5) (c := 3) (d := 1) (a' := 2) (b' := 3) (c' := 5) (d' := 1)
  refine ⟨net, h1, h2, fun n hU ho => ?_⟩
  obtain ⟨p, q, r, p0, p1, q0, q1, r0, r1, e1, e2, e3, e4, e5⟩ := h3 n hU ho
  rw [show n.NoGain ["D1", "D2"] [1, 2] ↔ _ from e4, e5, show n.chooses "D1" 0 = _ from e1, show n.answers "D1" "D2" 0 0 = _ from e2,
    show n.answers "D1" "D2" 1 0 = _ from e3]
  constructor
  · constructor
    · rintro ⟨k1, k2, k3, k4, k5, k6⟩
      rcases eq_or_lt_of_le p0 with h | h
      · subst h
        have : r = 1 := by linarith
        subst this
        refine .inr ⟨rfl, rfl, by linarith⟩
      · have hq : q = 0 := by
          have : q ≤ 0 := by
            by_contra hh
            nlinarith [mul_pos h (not_le.1 hh)]
          linarith
        subst hq
        refine .inl ⟨?_, rfl⟩
        by_contra hh
        have : p < 1 := lt_of_le_of_ne p1 hh
        nlinarith
    · rintro (⟨rfl, rfl⟩ | ⟨rfl, rfl, k⟩)
      · norm_num
        linarith
      · norm_num
        linarith
  · constructor
    · rintro ⟨k1, k2, k3, k4, k5, k6⟩
      have hq : q = 0 := by linarith
      have hr : r = 1 := by linarith
      subst hq hr
      exact ⟨by linarith, rfl, rfl⟩
    · rintro ⟨rfl, rfl, rfl⟩
      norm_num

/-- **C114** `modified_taxi_competition`: the strategies are subgame perfect exactly if the first taxi stops at the expensive hotel and the
second then stops at the cheap one.  What the second taxi does when the first stops at the cheap hotel is free, so there are two pure
subgame perfect equilibria. -/
theorem C114_modified_taxi_competition : ∃ net, modifiedTaxiCompetition = .ok net ∧ net.Usable ∧ ∀ n, n.Usable → OnlyRules net net.m.decisions n →
    (n.NoGain ["D1", "D2"] [1, 2] ↔ (n.chooses "D1" 0 = 1 ∧ n.answers "D1" "D2" 0 0 = 0) ∨
      (n.chooses "D1" 0 = 0 ∧ 4 ≤ 3 * n.answers "D1" "D2" 0 0 + 2 * n.answers "D1" "D2" 1 0)) ∧
    (n.SubgamePerfect ↔ n.chooses "D1" 0 = 1 ∧ n.answers "D1" "D2" 0 0 = 0) := by
  obtain ⟨net, h1, h2, h3⟩ := sequential2 (s := .numbered) (.inl rfl) (a := 2) (b := 5) (c := 3) (d := 1) (a' := 2) (b' := 3) (c' := 5) (d' := 5)
  refine ⟨net, h1, h2, fun n hU ho => ?_⟩
  obtain ⟨p, q, r, p0, p1, q0, q1, r0, r1, e1, e2, e3, e4, e5⟩ := h3 n hU ho
  rw [show n.NoGain ["D1", "D2"] [1, 2] ↔ _ from e4, e5, show n.chooses "D1" 0 = _ from e1, show n.answers "D1" "D2" 0 0 = _ from e2,
    show n.answers "D1" "D2" 1 0 = _ from e3]
  constructor
  · constructor
    · rintro ⟨k1, k2, k3, k4, k5, k6⟩
      rcases eq_or_lt_of_le p0 with h | h
      · subst h
        exact .inr ⟨rfl, by linarith⟩
      · have hq : q = 0 := by
          have : q ≤ 0 := by
            by_contra hh
            nlinarith [mul_pos h (not_le.1 hh)]
          linarith
        subst hq
        refine .inl ⟨?_, rfl⟩
        by_contra hh
        have : p < 1 := lt_of_le_of_ne p1 hh
        nlinarith
    · rintro (⟨rfl, rfl⟩ | ⟨rfl, k⟩)
      · norm_num
        linarith
      · norm_num
        linarith
  · constructor
    · rintro ⟨k1, k2, k3, k4, k5, k6⟩
      have hq : q = 0 := by linarith
      subst hq
      refine ⟨?_, rfl⟩
      by_contra hh
      have : p < 1 := lt_of_le_of_ne p1 hh
      nlinarith
    · rintro ⟨rfl, rfl⟩
      norm_num
      linarith

theorem game_diagram {s : Seats} (hs : s = .numbered ∨ s = .couple ∨ s = .counted) {seen : Bool} {a b c d a' b' c' d' : Rat} {net : Net}
    (h : tableGame s seen [0, 1] [0, 1] [[a, b], [c, d]] [[a', b'], [c', d']] = .ok net) : net.m = boardM s seen := by
  obtain ⟨net', e, hm, _⟩ := tableGame_board hs seen (l1 := [0, 1]) (l2 := [0, 1]) (by simp) (by simp) (by decide +kernel) (by decide +kernel)
    (shape2 a b c d) (shape2 a' b' c' d')
  rw [h] at e
  cases e
  exact hm

/-- **C114** The diagrams of the games: both choices influence both payoffs, and only the second taxi sees the choice of the first.  In
`battle_of_the_sexes` agent 1, called "M", decides `D_F` and receives `U_F`. -/
theorem C114_diagrams {net : Net} :
    (prisonersDilemma = .ok net ∨ matchingPennies = .ok net →
      (∀ u v, net.g.Edge u v ↔ (u = "D1" ∨ u = "D2") ∧ (v = "U1" ∨ v = "U2")) ∧ net.m.role "D1" = .decision 1 ∧ net.m.role "D2" = .decision 2 ∧
        net.m.role "U1" = .utility 1 ∧ net.m.role "U2" = .utility 2) ∧
    (taxiCompetition = .ok net ∨ modifiedTaxiCompetition = .ok net →
      (∀ u v, net.g.Edge u v ↔ ((u = "D1" ∨ u = "D2") ∧ (v = "U1" ∨ v = "U2")) ∨ (u = "D1" ∧ v = "D2")) ∧ net.m.role "D1" = .decision 1 ∧
        net.m.role "D2" = .decision 2 ∧ net.m.role "U1" = .utility 1 ∧ net.m.role "U2" = .utility 2) ∧
    (battleOfTheSexes = .ok net →
      (∀ u v, net.g.Edge u v ↔ (u = "D_F" ∨ u = "D_M") ∧ (v = "U_F" ∨ v = "U_M")) ∧ net.m.role "D_F" = .decision 1 ∧ net.m.role "D_M" = .decision 2 ∧
        net.m.role "U_F" = .utility 1 ∧ net.m.role "U_M" = .utility 2) := by
  refine ⟨fun h => ?_, fun h => ?_, fun h => ?_⟩
  · have hm : net.m = boardM .numbered false := by
      rcases h with h | h
      · exact game_diagram (.inl rfl) h
      · exact game_diagram (.inl rfl) h
    refine ⟨fun u v => ?_, ?_⟩
    · show net.m.g.Edge u v ↔ _
      rw [hm, boardM_edge]
      simp [Seats.numbered]
    · rw [hm]
      decide +kernel
  · have hm : net.m = boardM .numbered true := by
      rcases h with h | h
      · exact game_diagram (.inl rfl) h
      · exact game_diagram (.inl rfl) h
    refine ⟨fun u v => ?_, ?_⟩
    · show net.m.g.Edge u v ↔ _
      rw [hm, boardM_edge]
      simp [Seats.numbered]
    · rw [hm]
      decide +kernel
  · have hm : net.m = boardM .couple false := game_diagram (.inr (.inl rfl)) h
    refine ⟨fun u v => ?_, ?_⟩
    · show net.m.g.Edge u v ↔ _
      rw [hm, boardM_edge]
      simp [Seats.couple]
    · rw [hm]
      decide +kernel

end Verif

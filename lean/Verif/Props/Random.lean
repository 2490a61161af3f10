import Verif.Lemmas.RandomLive

/-!
# Random graphs (C70, C71)
-/

namespace Verif

open Random

/-- **C70** Whatever the random choices, if `random_dag` returns, the graph is acyclic and connected, has exactly the nodes asked for, all
edges lead from lower to higher numbers, and there are as many edges as the density asks for, or the `n - 1` that are needed to
connect the nodes if these are more. -/
theorem C70_random_dag {n : Nat} {density : Rat} {maxIn : Int} {ω ω' : Draws} {g : Graph}
    (h : randomDag n density maxIn ω = some (.ok (g, ω'))) :
    IsRandomDag n g ∧ g.edges.length = max (n - 1) ⌊density * ((n : Rat) * ((n : Rat) - 1) / 2)⌋.toNat := by
  obtain ⟨h1, h2, _⟩ := randomDag_ok h
  exact ⟨⟨h1.wf, h1.nodes, h1.ordered, h1.joined⟩, h2⟩

namespace Random

theorem connect_no_error {n : Nat} {maxIn : Int} {ω : Draws} {g : Graph} {visited unvisited : List Node} {e : Err}
    (hc : Conn n maxIn g visited unvisited) : connect (nodeNames n) maxIn ω g visited unvisited ≠ some (.error e) := by
  rcases connect_live ω hc with ⟨g', ω1, vis, q, _⟩ | ⟨q, _⟩
  · have := q []
    rw [List.append_nil] at this
    rw [this]
    simp
  · rw [q]
    simp

theorem fill_no_error {n : Nat} {target : Nat} (hn : target = 0 ∨ 2 ≤ n) {e : Err} : ∀ {ω : Draws} {g : Graph},
    fill (nodeNames n) target ω g ≠ some (.error e)
  | [], g => by unfold fill; split <;> simp
  | [r], g => by unfold fill; split <;> simp
  | r :: s :: ω, g => by
    by_cases hlt : g.edges.length < target
    · obtain ⟨n1, n2, hs⟩ := sample_two_ok (n := n) (by omega) r s
      rw [fill_draw hlt hs]
      exact fill_no_error hn
    · rw [fill_done hlt]
      simp

end Random

/-- **C70** For a positive number of nodes `random_dag` never raises; for 0 nodes it always raises an IndexError. -/
theorem C70_no_exception {n : Nat} {density : Rat} {maxIn : Int} {ω : Draws} :
    (0 < n → ∀ e, randomDag n density maxIn ω ≠ some (.error e)) ∧ (n = 0 → randomDag n density maxIn ω = some (.error .index)) := by
  constructor
  · intro hn e
    have hne : nodeNames n ≠ [] := by
      intro e
      have := length_names n
      rw [e] at this
      simp at this
      omega
    cases ω with
    | nil => simp [randomDag, show n ≠ 0 by omega]
    | cons r ω =>
      obtain ⟨node, h1, m1⟩ := choice_of_ne hne r
      simp only [randomDag, h1]
      split
      · simp
      · rename_i e' he
        exact absurd he (connect_no_error (Conn.start m1))
      · apply fill_no_error
        by_cases h2 : 2 ≤ n
        · exact Or.inr h2
        · left
          have : n = 1 := by omega
          subst this
          simp [edgeTarget]
  · rintro rfl
    cases ω <;> simp [randomDag, choice, nodeNames]

/-- **C70** There are no dead ends: if at least one parent per node is allowed and the density asks for no more edges than fit with 4
parents per node, `random_dag` can still return, whatever has been drawn so far. -/
theorem C70_no_dead_end {n : Nat} {density : Rat} {maxIn : Int} (hn : 0 < n) (hm : 1 ≤ maxIn)
    (ht : ⌊density * ((n : Rat) * ((n : Rat) - 1) / 2)⌋.toNat ≤ capacity n 4) (ω : Draws) :
    ∃ ω' g ω1, randomDag n density maxIn (ω ++ ω') = some (.ok (g, ω1)) :=
  randomDag_live hn hm ht ω

/-- The default arguments (5 nodes, density 0.4) meet the conditions, and this is one of the graphs. -/
theorem C70_example : ⌊(2 / 5 : Rat) * (((5 : Nat) : Rat) * (((5 : Nat) : Rat) - 1) / 2)⌋.toNat ≤ capacity 5 4 ∧
    (match randomDag 5 (2 / 5) 4 [2, 0, 0, 0, 0, 1, 0, 3, 1] with
      | some (.ok (g, _)) => g.edges
      | _ => []) = [("X0", "X2"), ("X1", "X2"), ("X2", "X4"), ("X0", "X3")] := by
  constructor
  · have : ⌊(2 / 5 : Rat) * (((5 : Nat) : Rat) * (((5 : Nat) : Rat) - 1) / 2)⌋ = 4 := by norm_num
    rw [this]
    decide
  · decide +kernel

/-- **C71** In-degrees are bounded, but only by the largest of `max_in_degree`, 4 and 1. -/
theorem C71_in_degree {n : Nat} {density : Rat} {maxIn : Int} {ω ω' : Draws} {g : Graph}
    (h : randomDag n density maxIn ω = some (.ok (g, ω'))) (v : Node) : ((g.parents v).length : Int) ≤ max (max maxIn 4) 1 :=
  (randomDag_ok h).1.deg v

/-- **C71** FALSE that `max_in_degree` is respected: with `max_in_degree` 1 a node can have 4 parents, because the second loop does not
pass the argument on. -/
theorem C71_counterexample : ∃ ω g ω', randomDag 5 1 1 ω = some (.ok (g, ω')) ∧ (g.parents "X4").length = 4 := by
  refine ⟨[0, 0, 0, 0, 1, 0, 2, 0, 3, 0, 1, 0, 2, 0, 3, 1, 2, 1, 3, 2, 3], ⟨["X0", "X1", "X2", "X3", "X4"], ?_⟩, [], ?_, ?_⟩
  · exact [("X0", "X1"), ("X1", "X2"), ("X2", "X3"), ("X3", "X4"), ("X0", "X2"), ("X0", "X3"), ("X0", "X4"), ("X1", "X3"), ("X1", "X4"), ("X2", "X4")]
  · decide +kernel
  · decide +kernel

/-- **C71** If the density asks for more edges than fit, `random_dag` never returns, whatever is drawn. -/
theorem C71_never_returns {n : Nat} {density : Rat} {maxIn : Int} (hn : 0 < n)
    (ht : capacity n (max maxIn.toNat 4) < ⌊density * ((n : Rat) * ((n : Rat) - 1) / 2)⌋.toNat) (ω : Draws) :
    randomDag n density maxIn ω = none := by
  match h : randomDag n density maxIn ω with
  | none => rfl
  | some (.error e) => exact absurd h (C70_no_exception.1 hn e)
  | some (.ok (g, ω')) =>
    exfalso
    obtain ⟨h1, h2, _⟩ := randomDag_ok h
    have hb : max (max maxIn 4) 1 = ((max maxIn.toNat 4 : Nat) : Int) := by omega
    rw [hb] at h1
    have := h1.edges_le
    have e : edgeTarget n density = ⌊density * ((n : Rat) * ((n : Rat) - 1) / 2)⌋.toNat := rfl
    omega

/-- For instance ten nodes, default `max_in_degree` and density 1: 45 edges are asked for, 30 fit. -/
theorem C71_example (ω : Draws) : randomDag 10 1 4 ω = none := by
  apply C71_never_returns (by decide)
  have : ⌊(1 : Rat) * (((10 : Nat) : Rat) * (((10 : Nat) : Rat) - 1) / 2)⌋ = 45 := by norm_num
  rw [this]
  decide

end Verif

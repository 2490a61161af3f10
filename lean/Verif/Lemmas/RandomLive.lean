import Verif.Lemmas.Random

/-!
# Random graphs: the loops can always be left
-/

namespace Verif
namespace Random

open Relation

/-- some choice is not rejected -/
theorem Conn.progress {n : Nat} {maxIn : Int} (hm : 1 ≤ maxIn) {g : Graph} {visited unvisited : List Node}
    (h : Conn n maxIn g visited unvisited) {node : Node} (hn : node ∈ unvisited) :
    ∃ nb ∈ visited, ∃ g', connectStep (nodeNames n) maxIn g node nb = some g' := by
  classical
  have hne : ∃ j, nodeName j ∈ visited := by
    have := h.count
    cases hv : visited with
    | nil => rw [hv] at this; simp at this
    | cons v vs =>
      obtain ⟨j, _, e⟩ := mem_names.1 (h.perm.mem_iff.1 (List.mem_append_left _ (show v ∈ visited by rw [hv]; simp)))
      exact ⟨j, by rw [← e]; simp⟩
  have hmin := Nat.find_spec hne
  have hlow := fun k => Nat.find_min hne (m := k)
  generalize Nat.find hne = m at hmin hlow
  obtain ⟨i, hi, rfl⟩ := mem_names.1 (h.perm.mem_iff.1 (List.mem_append_right _ hn))
  obtain ⟨m', hm', e⟩ := mem_names.1 (h.perm.mem_iff.1 (List.mem_append_left _ hmin))
  have := nodeName_inj e
  subst this
  refine ⟨nodeName m, hmin, ?_⟩
  have hnd : (visited ++ unvisited).Nodup := h.perm.nodup_iff.2 (nodup_names n)
  have hne' : i ≠ m := by
    rintro rfl
    exact (List.nodup_append.1 hnd).2.2 _ hmin _ hn rfl
  unfold connectStep
  rw [idxOf_name hi, idxOf_name hm']
  by_cases hlt : i < m
  · have hz : inDegree g (nodeName m) = 0 := by
      unfold inDegree
      rw [List.length_eq_zero_iff, List.eq_nil_iff_forall_not_mem]
      intro u hu
      have he := Graph.mem_parents.1 hu
      obtain ⟨a, b, hab, _, rfl, e⟩ := h.ordered _ _ he
      have := nodeName_inj e
      exact hlow a (by omega) ((h.nodes _).1 (h.wf.edgeNodes _ _ he).1)
    rw [if_pos ⟨hlt, by rw [hz]; omega⟩]
    exact ⟨_, rfl⟩
  · rw [if_neg (by omega), if_pos (by omega)]
    exact ⟨_, rfl⟩

theorem connect_nil {order : List Node} {maxIn : Int} {ω : Draws} {g : Graph} {visited : List Node} :
    connect order maxIn ω g visited [] = some (.ok (g, ω)) := by
  unfold connect
  rfl

theorem connect_draw {order : List Node} {maxIn : Int} {r s : Nat} {ω : Draws} {g : Graph} {visited unvisited : List Node}
    {node nb : Node} (hne : unvisited ≠ []) (h1 : choice unvisited r = .ok node) (h2 : choice visited s = .ok nb) :
    connect order maxIn (r :: s :: ω) g visited unvisited = match connectStep order maxIn g node nb with
      | none => connect order maxIn ω g visited unvisited
      | some g' => connect order maxIn ω g' (visited ++ [node]) (unvisited.erase node) := by
  cases unvisited with
  | nil => exact absurd rfl hne
  | cons x xs =>
    rw [connect]
    · simp only [h1, h2]
      rfl
    · simp

theorem Conn.visited_ne {n : Nat} {maxIn : Int} {g : Graph} {visited unvisited : List Node} (h : Conn n maxIn g visited unvisited) :
    visited ≠ [] := by
  intro e
  have := h.count
  rw [e] at this
  simp at this

/-- from here the first loop can be left -/
theorem connect_live0 {n : Nat} {maxIn : Int} (hm : 1 ≤ maxIn) : ∀ (k : Nat) {g : Graph} {visited unvisited : List Node},
    unvisited.length = k → Conn n maxIn g visited unvisited →
    ∃ ω' g' vis, (∀ ω'', connect (nodeNames n) maxIn (ω' ++ ω'') g visited unvisited = some (.ok (g', ω''))) ∧ Conn n maxIn g' vis []
  | 0, g, visited, unvisited, hk, hc => by
    have := List.length_eq_zero_iff.1 hk
    subst this
    exact ⟨[], g, visited, fun ω'' => connect_nil, hc⟩
  | k + 1, g, visited, unvisited, hk, hc => by
    have hne : unvisited ≠ [] := by rintro rfl; simp at hk
    obtain ⟨node, hn⟩ := List.exists_mem_of_ne_nil _ hne
    obtain ⟨nb, hb, g1, hs⟩ := hc.progress hm hn
    obtain ⟨r, hr⟩ := choice_reach hn
    obtain ⟨s, hs'⟩ := choice_reach hb
    have hlen : (unvisited.erase node).length = k := by rw [List.length_erase_of_mem hn, hk]; rfl
    obtain ⟨ω', g', vis, q1, q2⟩ := connect_live0 hm k hlen (hc.step hn hb hs)
    refine ⟨r :: s :: ω', g', vis, fun ω'' => ?_, q2⟩
    rw [List.cons_append, List.cons_append, connect_draw hne hr hs', hs]
    exact q1 ω''

/-- the first loop never raises, what it has returned it returns with more draws as well, and it can always be left -/
theorem connect_live {n : Nat} {maxIn : Int} : ∀ (ω : Draws) {g : Graph} {visited unvisited : List Node}, 
    Conn n maxIn g visited unvisited →
    (∃ g' ω1 vis, (∀ ω', connect (nodeNames n) maxIn (ω ++ ω') g visited unvisited = some (.ok (g', ω1 ++ ω'))) ∧ Conn n maxIn g' vis []) ∨
    connect (nodeNames n) maxIn ω g visited unvisited = none ∧ (1 ≤ maxIn → ∃ ω' g' vis,
      (∀ ω'', connect (nodeNames n) maxIn (ω ++ ω' ++ ω'') g visited unvisited = some (.ok (g', ω''))) ∧ Conn n maxIn g' vis [])
  | ω, g, visited, [], hc => Or.inl ⟨g, ω, visited, fun ω' => connect_nil, hc⟩
  | [], g, visited, x :: xs, hc => Or.inr ⟨by simp [connect], fun hm => by
      simpa using connect_live0 hm _ rfl hc⟩
  | [r], g, visited, x :: xs, hc => Or.inr ⟨by simp [connect], fun hm => by
      obtain ⟨node, h1, m1⟩ := choice_of_ne (l := x :: xs) (by simp) r
      obtain ⟨nb, h2, m2⟩ := choice_of_ne hc.visited_ne 0
      cases hs : connectStep (nodeNames n) maxIn g node nb with
      | none =>
        obtain ⟨ω', g', vis, q1, q2⟩ := connect_live0 hm _ rfl hc
        refine ⟨0 :: ω', g', vis, fun ω'' => ?_, q2⟩
        simp only [List.cons_append, List.nil_append]
        rw [connect_draw (by simp) h1 h2, hs]
        exact q1 ω''
      | some g1 =>
        obtain ⟨ω', g', vis, q1, q2⟩ := connect_live0 hm _ rfl (hc.step m1 m2 hs)
        refine ⟨0 :: ω', g', vis, fun ω'' => ?_, q2⟩
        simp only [List.cons_append, List.nil_append]
        rw [connect_draw (by simp) h1 h2, hs]
        exact q1 ω''⟩
  | r :: s :: ω, g, visited, x :: xs, hc => by
    obtain ⟨node, h1, m1⟩ := choice_of_ne (l := x :: xs) (by simp) r
    obtain ⟨nb, h2, m2⟩ := choice_of_ne hc.visited_ne s
    simp only [List.cons_append, connect_draw (show x :: xs ≠ [] by simp) h1 h2]
    cases hs : connectStep (nodeNames n) maxIn g node nb with
    | none => exact connect_live ω hc
    | some g1 => exact connect_live ω (hc.step m1 m2 hs)

theorem sample_cons {α : Type} {k : Nat} {l : List α} {r : Nat} {ω : Draws} {x : α} (hl : k + 1 ≤ l.length) (hx : choice l r = .ok x)
    {xs : List α} {ω' : Draws} (h : sample k (l.eraseIdx (r % l.length)) ω = some (.ok (xs, ω'))) :
    sample (k + 1) l (r :: ω) = some (.ok (x :: xs, ω')) := by
  unfold sample
  rw [if_neg (by omega)]
  simp only [hx, h]

/-- two nodes in a given order can be drawn -/
theorem sample_reach {n i j : Nat} (hij : i < j) (hj : j < n) :
    ∃ r s, sample 2 (nodeNames n) [r, s] = some (.ok ([nodeName i, nodeName j], [])) := by
  refine ⟨i, j - 1, ?_⟩
  have hl := length_names n
  have hget : ∀ k, k < n → (nodeNames n)[k]? = some (nodeName k) := by
    intro k hk
    simp [nodeNames, hk]
  have hle : ((nodeNames n).eraseIdx i).length = n - 1 := by rw [List.length_eraseIdx_of_lt (by omega), hl]
  have h1 : choice (nodeNames n) i = .ok (nodeName i) := by
    unfold choice
    rw [hl, Nat.mod_eq_of_lt (by omega), hget i (by omega)]
  have h2 : choice ((nodeNames n).eraseIdx i) (j - 1) = .ok (nodeName j) := by
    unfold choice
    rw [hle, Nat.mod_eq_of_lt (by omega), List.getElem?_eraseIdx, if_neg (by omega), Nat.sub_add_cancel (by omega), hget j hj]
  refine sample_cons (k := 1) (by omega) h1 (sample_cons (k := 0) ?_ ?_ rfl)
  · rw [hl, Nat.mod_eq_of_lt (show i < n by omega)]
    omega
  · rw [hl, Nat.mod_eq_of_lt (show i < n by omega)]
    exact h2

/-- as long as there is room an edge can be added -/
theorem Filling.progress {n : Nat} {bound : Int} {g : Graph} (h : Filling n bound g) (hc : g.edges.length < capacity n 4) :
    ∃ i j, i < j ∧ j < n ∧ (inDegree g (nodeName j) : Int) < 4 ∧ (nodeName i, nodeName j) ∉ g.edges := by
  by_contra hno
  push Not at hno
  rw [edges_eq_sum (nodup_names n) (fun u v he => by
    obtain ⟨i, j, _, hj, _, rfl⟩ := h.ordered u v he
    exact mem_names.2 ⟨j, hj, rfl⟩)] at hc
  refine absurd hc (not_lt.2 ?_)
  unfold nodeNames capacity
  rw [List.map_map]
  apply List.sum_le_sum
  intro j hj
  have hjn := List.mem_range.1 hj
  simp only [Function.comp]
  by_cases hd : (inDegree g (nodeName j) : Int) < 4
  · have hsub : (List.range j).map nodeName ⊆ g.parents (nodeName j) := by
      intro u hu
      obtain ⟨i, hi, rfl⟩ := List.mem_map.1 hu
      exact Graph.mem_parents.2 (hno i j (List.mem_range.1 hi) hjn hd)
    have := length_le_of_nodup_subset (List.Nodup.map (fun _ _ e => nodeName_inj e) List.nodup_range) hsub
    simp only [List.length_map, List.length_range] at this
    unfold inDegree
    omega
  · omega

theorem fill_done {order : List Node} {target : Nat} {g : Graph} (h : ¬ g.edges.length < target) (ω : Draws) :
    fill order target ω g = some (.ok (g, ω)) := by
  match ω with
  | [] => simp only [fill, if_neg h]
  | [r] => simp only [fill, if_neg h]
  | r :: s :: ω => simp only [fill, if_neg h]

theorem fill_draw {order : List Node} {target : Nat} {g : Graph} (h : g.edges.length < target) {r s : Nat} {n1 n2 : Node} {ω0 : Draws}
    (hs : sample 2 order [r, s] = some (.ok ([n1, n2], ω0))) (ω : Draws) :
    fill order target (r :: s :: ω) g = fill order target ω (addRandomEdge order 4 g n1 n2) := by
  rw [fill, if_pos h]
  simp only [hs]

theorem sample_two_ok {n : Nat} (hn : 2 ≤ n) (r s : Nat) : ∃ n1 n2, sample 2 (nodeNames n) [r, s] = some (.ok ([n1, n2], [])) := by
  have hl := length_names n
  obtain ⟨x, hx, _⟩ := choice_of_ne (l := nodeNames n) (by intro e; rw [e] at hl; simp at hl; omega) r
  have hle : ((nodeNames n).eraseIdx (r % (nodeNames n).length)).length = n - 1 := by
    rw [List.length_eraseIdx_of_lt (Nat.mod_lt _ (by omega)), hl]
  obtain ⟨y, hy, _⟩ := choice_of_ne (l := (nodeNames n).eraseIdx (r % (nodeNames n).length)) (by
    intro e; rw [e] at hle; simp at hle; omega) s
  refine ⟨x, y, ?_⟩
  exact sample_cons (k := 1) (by omega) hx (sample_cons (k := 0) (by omega) hy rfl)

theorem two_of_room {n : Nat} (h : 0 < capacity n 4) : 2 ≤ n := by
  match n with
  | 0 => simp [capacity] at h
  | 1 => simp [capacity, List.range_succ] at h
  | n + 2 => omega

theorem fill_live0 {n : Nat} {bound : Int} (hb : 4 ≤ bound) {target : Nat} (ht : target ≤ capacity n 4) : ∀ (k : Nat) {g : Graph},
    target - g.edges.length = k → Filling n bound g →
    ∃ ω' g', ∀ ω'', fill (nodeNames n) target (ω' ++ ω'') g = some (.ok (g', ω''))
  | 0, g, hk, hf => ⟨[], g, fun ω'' => fill_done (by omega) ω''⟩
  | k + 1, g, hk, hf => by
    have hlt : g.edges.length < target := by omega
    obtain ⟨i, j, hij, hj, hd, hne⟩ := hf.progress (by omega)
    obtain ⟨r, s, hrs⟩ := sample_reach hij hj
    have hadd : addRandomEdge (nodeNames n) 4 g (nodeName i) (nodeName j) = g.nxAddEdge (nodeName i) (nodeName j) := by
      unfold addRandomEdge
      rw [idxOf_name hj, idxOf_name (show i < n by omega), if_pos ⟨hij, hd⟩]
    have hlen : (g.nxAddEdge (nodeName i) (nodeName j)).edges.length = g.edges.length + 1 := by
      rw [nxAddEdge_edges, if_neg hne]
      simp
    obtain ⟨ω', g', q⟩ := fill_live0 hb ht k (by rw [hlen]; omega) (hf.add hij hj (by omega))
    refine ⟨r :: s :: ω', g', fun ω'' => ?_⟩
    rw [List.cons_append, List.cons_append, fill_draw hlt hrs, hadd]
    exact q ω''

theorem fill_live {n : Nat} {bound : Int} (hb : 4 ≤ bound) {target : Nat} (ht : target ≤ capacity n 4) : ∀ (ω : Draws) {g : Graph},
    Filling n bound g → ∃ ω' g' ω1, fill (nodeNames n) target (ω ++ ω') g = some (.ok (g', ω1))
  | [], g, hf => by
    obtain ⟨ω', g', q⟩ := fill_live0 hb ht _ rfl hf
    exact ⟨ω', g', [], by simpa using q []⟩
  | [r], g, hf => by
    by_cases hlt : g.edges.length < target
    · obtain ⟨n1, n2, hs⟩ := sample_two_ok (two_of_room (n := n) (by omega)) r 0
      obtain ⟨m1, m2⟩ := sample_two hs
      obtain ⟨ω', g', q⟩ := fill_live0 hb ht _ rfl (hf.step hb m1 m2).1
      refine ⟨0 :: ω', g', [], ?_⟩
      simp only [List.cons_append, List.nil_append]
      rw [fill_draw hlt hs]
      simpa using q []
    · exact ⟨[], g, _, fill_done hlt _⟩
  | r :: s :: ω, g, hf => by
    by_cases hlt : g.edges.length < target
    · obtain ⟨n1, n2, hs⟩ := sample_two_ok (two_of_room (n := n) (by omega)) r s
      obtain ⟨m1, m2⟩ := sample_two hs
      obtain ⟨ω', g', ω1, q⟩ := fill_live hb ht ω (hf.step hb m1 m2).1
      refine ⟨ω', g', ω1, ?_⟩
      rw [List.cons_append, List.cons_append, fill_draw hlt hs]
      exact q
    · exact ⟨[], g, _, fill_done hlt _⟩

theorem randomDag_live {n : Nat} {density : Rat} {maxIn : Int} (hn : 0 < n) (hm : 1 ≤ maxIn)
    (ht : edgeTarget n density ≤ capacity n 4) (ω : Draws) : ∃ ω' g ω1, randomDag n density maxIn (ω ++ ω') = some (.ok (g, ω1)) := by
  have hne : nodeNames n ≠ [] := by
    intro e
    have := length_names n
    rw [e] at this
    simp at this
    omega
  have key : ∀ r ω, ∃ ω' g ω1, randomDag n density maxIn (r :: ω ++ ω') = some (.ok (g, ω1)) := by
    intro r ω
    obtain ⟨node, h1, m1⟩ := choice_of_ne hne r
    rcases connect_live ω (Conn.start (n := n) (maxIn := maxIn) m1) with ⟨g', ω1, vis, q1, q2⟩ | ⟨_, q⟩
    · obtain ⟨ω', g2, ω2, q3⟩ := fill_live (by omega) ht ω1 q2.filling.1
      refine ⟨ω', g2, ω2, ?_⟩
      simp only [List.cons_append, randomDag, h1, q1]
      exact q3
    · obtain ⟨ω', g', vis, q1, q2⟩ := q hm
      obtain ⟨ω2, g2, ω3, q3⟩ := fill_live (by omega) ht [] q2.filling.1
      refine ⟨ω' ++ ω2, g2, ω3, ?_⟩
      rw [List.nil_append] at q3
      simp only [List.cons_append, randomDag, h1, ← List.append_assoc, q1]
      exact q3
  cases ω with
  | nil =>
    obtain ⟨ω', g, ω1, h⟩ := key 0 []
    exact ⟨0 :: ω', g, ω1, by simpa using h⟩
  | cons r ω => exact key r ω

end Random
end Verif

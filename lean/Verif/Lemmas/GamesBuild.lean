import Verif.Lemmas.Games
import Verif.Model.Games
import Verif.Props.Total
import Verif.Props.Structure
import Verif.Lemmas.Build

/-!
# Building two-player games
-/

namespace Verif

open Net Graph Relation Macid

/-- the diagram of the game -/
def boardM (s : Seats) (seen : Bool) : Macid :=
  ⟨⟨if seen then [s.d1, s.d2, s.u1, s.u2] else [s.d1, s.u1, s.u2, s.d2],
    (if seen then [(s.d1, s.d2)] else []) ++ [(s.d1, s.u1), (s.d1, s.u2), (s.d2, s.u2), (s.d2, s.u1)]⟩,
   [(s.p1, [s.d1]), (s.p2, [s.d2])], [(s.p1, [s.u1]), (s.p2, [s.u2])], [(s.d1, s.p1), (s.d2, s.p2)], [(s.u1, s.p1), (s.u2, s.p2)]⟩

theorem boardM_init {s : Seats} (hs : s = .numbered ∨ s = .couple ∨ s = .counted) (seen : Bool) :
    Macid.init ((if seen then [(s.d1, s.d2)] else []) ++ [(s.d1, s.u1), (s.d1, s.u2), (s.d2, s.u2), (s.d2, s.u1)])
      [(s.p1, [s.d1]), (s.p2, [s.d2])] [(s.p1, [s.u1]), (s.p2, [s.u2])] = .ok (boardM s seen) := by
  rcases hs with rfl | rfl | rfl <;> cases seen <;> decide +kernel

theorem boardM_facts {s : Seats} (hs : s = .numbered ∨ s = .couple ∨ s = .counted) (seen : Bool) :
    (boardM s seen).Consistent ∧ staffedB (boardM s seen) = true ∧ [s.d1, s.d2, s.u1, s.u2].Nodup ∧ s.p1 ≠ s.p2 ∧
      (boardM s seen).role s.d1 = .decision s.p1 ∧ (boardM s seen).role s.d2 = .decision s.p2 ∧
      (boardM s seen).agentUtilities.get? s.p1 = some [s.u1] ∧ (boardM s seen).agentUtilities.get? s.p2 = some [s.u2] := by
  refine ⟨C15_constructor_consistent _ _ _ _ (boardM_init hs seen) ?_ ?_ ?_ ?_, ?_⟩
  all_goals rcases hs with rfl | rfl | rfl <;> cases seen <;> decide +kernel

theorem boardM_edge (s : Seats) (seen : Bool) (u v : Node) :
    (boardM s seen).g.Edge u v ↔ ((u = s.d1 ∨ u = s.d2) ∧ (v = s.u1 ∨ v = s.u2)) ∨ (seen = true ∧ u = s.d1 ∧ v = s.d2) := by
  cases seen <;> simp only [boardM, Graph.Edge, if_true, Bool.false_eq_true, if_false, List.cons_append, List.nil_append, List.mem_cons, Prod.mk.injEq,
    List.not_mem_nil, or_false, false_and, true_and] <;> generalize (u = s.d1) = a1 <;> generalize (u = s.d2) = a2 <;> generalize (v = s.u1) = a3 <;>
    generalize (v = s.u2) = a4
  · tauto
  · generalize (v = s.d2) = a5
    tauto

theorem boardM_nodes (s : Seats) (seen : Bool) (v : Node) : v ∈ (boardM s seen).g.nodes ↔ v ∈ [s.d1, s.d2, s.u1, s.u2] := by
  cases seen <;> simp only [boardM, if_true, Bool.false_eq_true, if_false, List.mem_cons, List.not_mem_nil, or_false]
  generalize (v = s.d1) = a1; generalize (v = s.d2) = a2; generalize (v = s.u1) = a3; generalize (v = s.u2) = a4
  tauto

theorem payoffFunc_val {t : List (List Rat)} {l1 l2 : List Outcome} {d1 d2 : Node} (ht : TableShape t l1 l2) {pv : PV} {x y : Outcome}
    (hx : pv d1 = some x) (hy : pv d2 = some y) (mx : x ∈ l1) (my : y ∈ l2) :
    payoffFunc t l1 l2 d1 d2 pv = .ok (.val (tableEntry t l1 l2 x y)) ∧ tableEntry t l1 l2 x y ∈ t.flatten := by
  have i1 : l1.idxOf x < t.length := by rw [ht.1]; exact List.idxOf_lt_length_iff.2 mx
  have i2 : l2.idxOf y < (t[l1.idxOf x]).length := by rw [ht.2 _ (List.getElem_mem i1)]; exact List.idxOf_lt_length_iff.2 my
  have e : tableEntry t l1 l2 x y = (t[l1.idxOf x])[l2.idxOf y] := by
    simp [tableEntry, List.getD_eq_getElem?_getD, i1, i2]
  constructor
  · rw [e]
    simp [payoffFunc, hx, hy, mx, my, i1, i2]
  · rw [e]
    exact List.mem_flatten.2 ⟨_, List.getElem_mem i1, List.getElem_mem i2⟩

theorem properDist_point (o : Outcome) : ProperDist [(o, some 1)] := by
  refine ⟨by simp [Dict.keys], fun x p h => ?_, .inl (by simp [givenMass])⟩
  simp only [given, Dict.get?] at h
  split at h
  · simp only [Option.join_some, Option.some.injEq] at h
    rw [← h]; norm_num
  · simp at h

/-- The game is built and is the one of the tables. -/
theorem tableGame_board {s : Seats} (hs : s = .numbered ∨ s = .couple ∨ s = .counted) (seen : Bool) {l1 l2 : List Outcome} (h1 : l1 ≠ []) (h2 : l2 ≠ [])
    (n1 : l1.Nodup) (n2 : l2.Nodup) {A B : List (List Rat)} (hA : TableShape A l1 l2) (hB : TableShape B l1 l2) :
    ∃ net, tableGame s seen l1 l2 A B = .ok net ∧ net.m = boardM s seen ∧
      Board net s.d1 s.d2 s.u1 s.u2 s.p1 s.p2 seen l1 l2 (tableEntry A l1 l2) (tableEntry B l1 l2) := by
  obtain ⟨c1, c2, c3, c4, c5, c6, c7, c8⟩ := boardM_facts hs seen
  have hne := c3
  simp only [List.nodup_cons, List.mem_cons, List.not_mem_nil, or_false, not_or, not_false_eq_true, List.nodup_nil, and_true] at hne
  obtain ⟨⟨k1, k2, k3⟩, ⟨k4, k5⟩, k6⟩ := hne
  have hedge : ∀ u v, (boardM s seen).g.Edge u v ↔ ((u = s.d1 ∨ u = s.d2) ∧ (v = s.u1 ∨ v = s.u2)) ∨ (seen = true ∧ u = s.d1 ∧ v = s.d2) := by
    exact boardM_edge s seen
  have hnodes : ∀ v, v ∈ (boardM s seen).g.nodes ↔ v ∈ [s.d1, s.d2, s.u1, s.u2] := by
    exact boardM_nodes s seen
  let T : Node → List Outcome := fun v => if v = s.d1 then l1 else if v = s.d2 then l2 else if v = s.u1 then A.flatten else B.flatten
  have T1 : T s.d1 = l1 := if_pos rfl
  have T2 : T s.d2 = l2 := by show (if _ then _ else if _ then _ else _) = _; rw [if_neg (Ne.symm k1), if_pos rfl]
  have T3 : T s.u1 = A.flatten := by show (if _ then _ else if _ then _ else if _ then _ else _) = _; rw [if_neg (Ne.symm k2), if_neg (Ne.symm k4), if_pos rfl]
  have T4 : T s.u2 = B.flatten := by show (if _ then _ else if _ then _ else if _ then _ else _) = _; rw [if_neg (Ne.symm k3), if_neg (Ne.symm k5), if_neg (Ne.symm k6)]
  let rels : List (Node × Rel) := [(s.d1, .seq l1), (s.d2, .seq l2), (s.u1, .func (payoffFunc A l1 l2 s.d1 s.d2)), (s.u2, .func (payoffFunc B l1 l2 s.d1 s.d2))]
  have hmap : rels.map (·.1) = [s.d1, s.d2, s.u1, s.u2] := rfl
  have hcall : ∀ t v, TableShape t l1 l2 → (v = s.u1 ∨ v = s.u2) → ∀ pv, CalledWith (boardM s seen).g T v pv →
      payoffFunc t l1 l2 s.d1 s.d2 pv = .ok (.val (tableEntry t l1 l2 ((pv s.d1).getD 0) ((pv s.d2).getD 0))) ∧
        tableEntry t l1 l2 ((pv s.d1).getD 0) ((pv s.d2).getD 0) ∈ t.flatten := by
    intro t v ht hv pv hpv
    obtain ⟨x, mx, hx⟩ := (hpv s.d1).1 ((hedge _ _).2 (.inl ⟨.inl rfl, hv⟩))
    obtain ⟨y, my, hy⟩ := (hpv s.d2).1 ((hedge _ _).2 (.inl ⟨.inr rfl, hv⟩))
    rw [T1] at mx
    rw [T2] at my
    have := payoffFunc_val ht hx hy mx my
    simpa [hx, hy] using this
  have hresp : ∀ q ∈ rels, q.2.Respects (boardM s seen).g T q.1 := by
    intro q hq
    simp only [rels, List.mem_cons, List.not_mem_nil, or_false] at hq
    rcases hq with rfl | rfl | rfl | rfl
    · exact ⟨h1, n1, by simp only [T1]; exact fun x h => h⟩
    · exact ⟨h2, n2, by simp only [T2]; exact fun x h => h⟩
    · intro pv hpv
      obtain ⟨e1, e2⟩ := hcall A _ hA (.inl rfl) pv hpv
      refine ⟨_, .inr ⟨_, e1, rfl⟩, properDist_point _, fun x hx => ?_⟩
      simp only [Dict.keys, List.map_cons, List.map_nil, List.mem_singleton] at hx
      rw [hx, T3]; exact e2
    · intro pv hpv
      obtain ⟨e1, e2⟩ := hcall B _ hB (.inr rfl) pv hpv
      refine ⟨_, .inr ⟨_, e1, rfl⟩, properDist_point _, fun x hx => ?_⟩
      simp only [Dict.keys, List.map_cons, List.map_nil, List.mem_singleton] at hx
      rw [hx, T4]; exact e2
  have hwf : (boardM s seen).g.WF := c1.wf
  have hfresh : (Net.mk (boardM s seen) [] [] [] Macid.new).Fresh := ⟨rfl, rfl, rfl⟩
  have hkeys : (rels.map (·.1)).Nodup := c3
  have hall : ∀ v, v ∈ rels.map (·.1) ↔ v ∈ (Net.mk (boardM s seen) [] [] [] Macid.new).g.nodes := fun v => (hnodes v).symm
  obtain ⟨net, a1, a2, a3, a4, a5, a6, a7, a8, a9, a10⟩ := C113_assignable (net := Net.mk (boardM s seen) [] [] [] Macid.new) (T := T) (l := rels) hfresh hwf
    hkeys hall hresp
  have hU : net.Usable := a10 c1 (.inl rfl) (staffed_of c2)
  have hg : net.g = (boardM s seen).g := congrArg Macid.g a2
  refine ⟨net, ?_, a2, hU, c3, by rw [hg]; exact hnodes, by rw [hg]; exact hedge, c4, by rw [a2]; exact c5, by rw [a2]; exact c6, by rw [a2]; exact c7, by rw [a2]; exact c8,
    a8 _ _ (by simp [rels]), a8 _ _ (by simp [rels]), fun a ha => ?_, fun a ha => ?_⟩
  · unfold tableGame
    rw [boardM_init hs seen]
    simp only
    rw [show (Net.mk (boardM s seen) [] [] [] Macid.new).addCpds [(s.d1, .seq l1), (s.d2, .seq l2), (s.u1, .func (payoffFunc A l1 l2 s.d1 s.d2)), (s.u2, .func (payoffFunc B l1 l2 s.d1 s.d2))] = (net, .ok ()) from a1]
  · rw [C113_plain_function (T := T) hfresh hwf hkeys hall hresp a1 (v := s.u1) (f := payoffFunc A l1 l2 s.d1 s.d2) (by simp [rels])
      (φ := fun pv => tableEntry A l1 l2 ((pv s.d1).getD 0) ((pv s.d2).getD 0)) (fun pv hpv => (hcall A _ hA (.inl rfl) pv hpv).1) ha]
    have p1 : s.d1 ∈ (boardM s seen).g.parents s.u1 := Graph.mem_parents.2 ((hedge _ _).2 (.inl ⟨.inl rfl, .inl rfl⟩))
    have p2 : s.d2 ∈ (boardM s seen).g.parents s.u1 := Graph.mem_parents.2 ((hedge _ _).2 (.inl ⟨.inr rfl, .inl rfl⟩))
    simp only [argsOf, Net.g, p1, p2, if_true, Option.getD_some]
  · rw [C113_plain_function (T := T) hfresh hwf hkeys hall hresp a1 (v := s.u2) (f := payoffFunc B l1 l2 s.d1 s.d2) (by simp [rels])
      (φ := fun pv => tableEntry B l1 l2 ((pv s.d1).getD 0) ((pv s.d2).getD 0)) (fun pv hpv => (hcall B _ hB (.inr rfl) pv hpv).1) ha]
    have p1 : s.d1 ∈ (boardM s seen).g.parents s.u2 := Graph.mem_parents.2 ((hedge _ _).2 (.inl ⟨.inl rfl, .inr rfl⟩))
    have p2 : s.d2 ∈ (boardM s seen).g.parents s.u2 := Graph.mem_parents.2 ((hedge _ _).2 (.inl ⟨.inr rfl, .inr rfl⟩))
    simp only [argsOf, Net.g, p1, p2, if_true, Option.getD_some]

end Verif

import Verif.Lemmas.Contest

/-!
# Setting up the guessing game on a requisite observation
-/

namespace Verif

open Graph Relation Macid Net

theorem cut_edge {g : Graph} {d u v : Node} : (CutGraph g [d]).Edge u v ↔ g.Edge u v ∧ v ≠ d := by
  unfold CutGraph Graph.Edge
  simp

namespace Plan

/-- The trail starts at an observation of `d` and avoids `d`, the guess starts at `d`. -/
structure Placed (P : Plan) (g : Graph) (d : Node) : Prop where
  ok : P.Ok (CutGraph g [d]) (fun v => g.Edge v d)
  game : P.Game (CutGraph g [d])
  off : ∀ p ≤ P.n, P.w p ≠ d
  act0 : P.act 0 = d
  root : g.Edge (P.w 0) d
  hop0 : P.h ≠ 0 → P.hop 0 ≠ d

variable {P : Plan} {g : Graph} {d : Node}

theorem Placed.child (h : P.Placed g d) {i : Cell} (hi : i ∈ P.allCells) : i = .win ∨ ∃ v, g.Edge (P.node i) v := by
  rcases mem_allCells.1 hi with hi | hi
  · right
    rcases mem_trailCells.1 hi with ⟨p, hp, rfl⟩ | ⟨p, j, hc, hj, rfl⟩
    · show ∃ v, g.Edge (P.w p) v
      by_cases hn : p = P.n
      · exact ⟨_, hn ▸ (cut_edge.1 h.game.take).1⟩
      have hs := h.ok.step p (by omega)
      by_cases hf : P.fwd p = true
      · rw [if_pos hf] at hs; exact ⟨_, (cut_edge.1 hs).1⟩
      by_cases h0 : p = 0
      · exact ⟨d, h0 ▸ h.root⟩
      have hs' := h.ok.step (p - 1) (by omega)
      by_cases hf' : P.fwd (p - 1) = true
      · have hc : P.col p = true := by
          simp only [col, Bool.and_eq_true, decide_eq_true_eq, Bool.not_eq_true']
          exact ⟨⟨h0, by omega⟩, hf', by simpa using hf⟩
        by_cases hl : P.len p = 0
        · have := h.ok.land p hc
          rw [hl, h.ok.start p hc] at this
          exact ⟨d, this⟩
        · have := h.ok.fall p hc 0 (by omega)
          rw [h.ok.start p hc] at this
          exact ⟨_, (cut_edge.1 this).1⟩
      · rw [if_neg hf', show p - 1 + 1 = p by omega] at hs'
        exact ⟨_, (cut_edge.1 hs').1⟩
    · show ∃ v, g.Edge (P.path p (j + 1)) v
      by_cases he : j + 1 = P.len p
      · exact ⟨d, he ▸ h.ok.land p hc⟩
      · exact ⟨_, (cut_edge.1 (h.ok.fall p hc (j + 1) (by omega))).1⟩
  · rcases mem_gameCells.1 hi with ⟨j, hj, rfl⟩ | ⟨j, hj, rfl⟩ | rfl
    · exact Or.inr ⟨_, (cut_edge.1 (h.game.hops j hj)).1⟩
    · right
      show ∃ v, g.Edge (P.act j) v
      by_cases he : j = P.m
      · exact ⟨_, he ▸ (cut_edge.1 h.game.pay).1⟩
      · exact ⟨_, (cut_edge.1 (h.game.acts j (by omega))).1⟩
    · exact Or.inl rfl

theorem Placed.atD (h : P.Placed g d) {i : Cell} (hi : i ∈ P.allCells) : P.node i = d ↔ i = .guess 0 := by
  constructor
  · intro e
    rcases mem_allCells.1 hi with hi | hi
    · rcases mem_trailCells.1 hi with ⟨p, hp, rfl⟩ | ⟨p, j, hc, hj, rfl⟩
      · exact absurd e (h.off p hp)
      · exact absurd e (cut_edge.1 (h.ok.fall p hc j hj)).2
    · rcases mem_gameCells.1 hi with ⟨j, hj, rfl⟩ | ⟨j, hj, rfl⟩ | rfl
      · by_cases h0 : j = 0
        · subst h0; exact absurd e (h.hop0 (by omega))
        · have := (cut_edge.1 (h.game.hops (j - 1) (by omega))).2
          rw [show j - 1 + 1 = j by omega] at this
          exact absurd e this
      · by_cases h0 : j = 0
        · rw [h0]
        · have := (cut_edge.1 (h.game.acts (j - 1) (by omega))).2
          rw [show j - 1 + 1 = j by omega] at this
          exact absurd e this
      · exact absurd e (cut_edge.1 h.game.pay).2
  · rintro rfl
    exact h.act0

theorem Placed.nodes (h : P.Placed g d) (hw : ∀ u v, g.Edge u v → u ∈ g.nodes ∧ v ∈ g.nodes) {i : Cell} (hi : i ∈ P.allCells) : P.node i ∈ g.nodes := by
  rcases h.child hi with rfl | ⟨v, hv⟩
  · exact (hw _ _ (cut_edge.1 h.game.pay).1).2
  · exact (hw _ _ hv).1

theorem Placed.below (h : P.Placed g d) {j : Nat} (hj : j ≤ P.m) : g.DescEq d (P.act j) := by
  induction j with
  | zero => rw [h.act0]; exact ReflTransGen.refl
  | succ j ih => exact (ih (by omega)).tail (cut_edge.1 (h.game.acts j (by omega))).1

/-- observations of `d` hold no guess and no prize -/
theorem Placed.plain (h : P.Placed g d) (hac : g.Acyclic) {v : Node} (hv : g.Edge v d) {i : Cell} (hi : i ∈ P.allCells) (e : P.node i = v) :
    (∀ j, i ≠ .guess j) ∧ i ≠ .win := by
  have hm : ∀ j, i = .guess j → j ≤ P.m := by
    rintro j rfl
    rcases mem_allCells.1 hi with q | q
    · rcases mem_trailCells.1 q with ⟨_, _, q⟩ | ⟨_, _, _, _, q⟩ <;> simp at q
    · rcases mem_gameCells.1 q with ⟨_, _, q⟩ | ⟨k, hk, q⟩ | q
      · simp at q
      · simp only [Cell.guess.injEq] at q; omega
      · simp at q
  constructor
  · intro j q
    have := h.below (hm j q)
    subst q
    have e' : P.act j = v := e
    rw [e'] at this
    exact hac d (TransGen.tail' this hv)
  · rintro rfl
    have e' : P.u = v := e
    have := (h.below (le_refl P.m)).tail (cut_edge.1 h.game.pay).1
    rw [e'] at this
    exact hac d (TransGen.tail' this hv)

theorem Placed.loc (h : P.Placed g d) (op : Bool) {g' : Graph} (hs : ∀ u v, g.Edge u v → v ≠ d → g'.Edge u v) : (P.wires op).Local g' :=
  (P.local_game h.ok h.game op).mono (fun u v e => hs u v (cut_edge.1 e).1 (cut_edge.1 e).2)

/-- A requisite observation gives a game. -/
theorem ofRequisite (hac : g.Acyclic) {x u : Node} (hx : g.Edge x d) (hdu : g.Desc d u) (hleaf : ∀ v, ¬ g.Edge u v) {Z : List Node}
    (hZ : ∀ z, z ∈ Z ↔ z ≠ x ∧ (z = d ∨ g.Edge z d)) (hD : g.DConn x u Z) :
    ∃ P : Plan, P.Placed g d ∧ P.w 0 = x ∧ P.h = 0 ∧ P.u = u ∧ ∀ c, P.col c = true → ∀ j < P.len c, ¬ g.Edge (P.path c j) d := by
  obtain ⟨_, _, p, ⟨p1, p2, p3, p4⟩, ha⟩ := hD
  have hxd : x ≠ d := by rintro rfl; exact hac _ (TransGen.single hx)
  have hxu : x ≠ u := by rintro rfl; exact hleaf _ hx
  -- drop the utility
  have hpne : p ≠ [] := by rintro rfl; simp at p1
  obtain ⟨p', hp'⟩ : ∃ p', p = p' ++ [u] := by
    refine ⟨p.dropLast, ?_⟩
    have := List.dropLast_append_getLast hpne
    rw [List.getLast?_eq_getLast_of_ne_nil hpne] at p2
    rw [Option.some.inj p2] at this
    exact this.symm
  subst hp'
  have hp'ne : p' ≠ [] := by
    rintro rfl
    simp only [List.nil_append, List.head?_cons, Option.some.injEq] at p1
    exact hxu p1.symm
  obtain ⟨q, t, hq⟩ : ∃ q t, p' = q ++ [t] := ⟨p'.dropLast, p'.getLast hp'ne, (List.dropLast_append_getLast hp'ne).symm⟩
  have hhead : p'.head? = some x := by
    rw [List.head?_append_of_ne_nil _ hp'ne] at p1; exact p1
  have hchain : p'.IsChain g.Adj := p3.left_of_append
  have hnd : p'.Nodup := (List.nodup_append.1 p4).1
  have htu : g.Edge t u := by
    have : g.Adj t u := by
      rw [hq, List.append_assoc] at p3
      have := p3.right_of_append
      simpa using this
    exact this.resolve_right (hleaf t)
  have hact : g.Active Z p' := by
    intro l a b c r e
    exact ha l a b c (r ++ [u]) (by rw [e]; simp)
  have ht : t ≠ x → t ∉ Z := by
    intro htx
    have hqne : q ≠ [] := by
      rintro rfl
      rw [hq] at hhead
      simp only [List.nil_append, List.head?_cons, Option.some.injEq] at hhead
      exact htx hhead
    obtain ⟨q', b, hq'⟩ : ∃ q' b, q = q' ++ [b] := ⟨q.dropLast, q.getLast hqne, (List.dropLast_append_getLast hqne).symm⟩
    refine (ha q' b t u [] (by rw [hq, hq']; simp)).2 (fun k => hleaf _ k.2)
  obtain ⟨P, hP, h0, hn, _, _, hclear, hh⟩ := Plan.ofPath hac (p := p') (s := x) (t := t) (Obs := fun v => v = d ∨ g.Edge v d)
    ⟨hhead, by rw [hq]; simp, hchain, hnd⟩ hact ht
    (fun v hv hvZ ho => hvZ ((hZ v).2 ⟨hv, ho⟩)) (fun v ⟨z, hz, hdz⟩ => ⟨z, ((hZ z).1 hz).2, hdz⟩)
  have hoff : ∀ p ≤ P.n, P.w p ≠ d := by
    intro p hp e
    by_cases hp0 : p = 0
    · rw [hp0, h0] at e; exact hxd e
    cases hc : P.col p with
    | false => exact hP.free p hp0 hp hc (Or.inl e)
    | true =>
      simp only [col, Bool.and_eq_true, decide_eq_true_eq, Bool.not_eq_true'] at hc
      have hs := hP.step p hc.1.2
      rw [if_neg (by rw [hc.2.2]; simp), e] at hs
      refine hP.free (p + 1) (by omega) (by omega) ?_ (Or.inr hs)
      simp [col, hc.2.2]
  -- where the colliders land
  have hland : ∀ c, P.col c = true → g.Edge (P.path c (P.len c)) d := by
    intro c hc
    rcases hP.land c hc with e | e
    · exfalso
      have hcn : c ≤ P.n := by simp only [col, Bool.and_eq_true, decide_eq_true_eq] at hc; omega
      by_cases hl : P.len c = 0
      · rw [hl, hP.start c hc] at e
        exact hoff c hcn e
      · have := hP.fall c hc (P.len c - 1) (by omega)
        rw [show P.len c - 1 + 1 = P.len c by omega, e] at this
        exact hclear c hc (P.len c - 1) (by omega) (Or.inr this)
    · exact e
  have hpath : ∀ c, P.col c = true → ∀ j ≤ P.len c, P.path c j ≠ d := by
    intro c hc j hj e
    rcases Nat.lt_or_ge j (P.len c) with q | q
    · exact hclear c hc j q (Or.inl e)
    · have : j = P.len c := by omega
      subst this
      have := hland c hc
      rw [e] at this
      exact hac _ (TransGen.single this)
  -- from the decision to the utility
  obtain ⟨k, f, f0, fk, fs⟩ := exists_walk hdu.to_reflTransGen
  have hk : k ≠ 0 := by
    rintro rfl
    rw [f0] at fk
    rw [← fk] at hdu
    exact hac _ hdu
  have hbelow : ∀ j ≤ k, j ≠ 0 → g.Desc d (f j) := by
    intro j
    induction j with
    | zero => intro _ h; exact absurd rfl h
    | succ j ih =>
      intro hj _
      by_cases hj0 : j = 0
      · subst hj0; have := fs 0 (by omega); rw [f0] at this; exact TransGen.single this
      · exact (ih (by omega) hj0).tail (fs j (by omega))
  have hfd : ∀ j ≤ k, j ≠ 0 → f j ≠ d := fun j hj h0 e => hac d (by have := hbelow j hj h0; rwa [e] at this)
  refine ⟨⟨P.n, P.w, P.fwd, P.len, P.path, 0, P.hop, k - 1, f, u⟩, ?_, h0, rfl, rfl, fun c hc j hj e => hclear c hc j hj (Or.inr e)⟩
  refine ⟨⟨fun p hp => ?_, hP.start, fun c hc j hj => ?_, hland, fun p hp0 hp hc e => hP.free p hp0 hp hc (Or.inr e)⟩,
    ⟨by simp, fun h => absurd rfl h, fun j hj => ?_, ?_, ?_⟩, hoff, f0, by show g.Edge (P.w 0) d; rw [h0]; exact hx, fun h => absurd rfl h⟩
  · have hp' : p < P.n := hp
    have := hP.step p hp'
    show if P.fwd p = true then _ else _
    split at this
    · rename_i hf; rw [if_pos hf]; exact cut_edge.2 ⟨this, hoff _ (by omega)⟩
    · rename_i hf; rw [if_neg hf]; exact cut_edge.2 ⟨this, hoff _ (by omega)⟩
  · have hj' : j < P.len c := hj
    exact cut_edge.2 ⟨hP.fall c hc j hj, hpath c hc _ (by omega)⟩
  · have hj' : j < k - 1 := hj
    exact cut_edge.2 ⟨fs j (by omega), hfd _ (by omega) (by omega)⟩
  · show (CutGraph g [d]).Edge (f (k - 1)) u
    have := fs (k - 1) (by omega)
    rw [show k - 1 + 1 = k by omega] at this
    rw [← fk]
    exact cut_edge.2 ⟨this, hfd k (le_refl _) hk⟩
  · show (CutGraph g [d]).Edge (P.w P.n) u
    rw [hn]
    exact cut_edge.2 ⟨htu, fun e => hac d (by rwa [e] at hdu)⟩

end Plan
end Verif

import Verif.Lemmas.Laws
import Verif.Lemmas.Trim
import Verif.Props.Paths

/-!
# The laws of d-separation (C118)
-/

namespace Verif
open Relation Graph

section
variable {g : Graph} {pick : Pick}

/-- **C118** Weak union: observations that are separated from `X` do no harm. -/
theorem C118_weak_union (hw : g.WF) {X Y Z W : List Node} (hX : X ⊆ g.nodes) (hZ : Z ⊆ g.nodes) (hW : W ⊆ g.nodes)
    (h : Apart pick g X (Y ++ W) Z) : Apart pick g X Y (Z ++ W) := by
  rw [apart_iff hw hX hZ] at h
  rw [apart_iff hw hX (List.append_subset.2 ⟨hZ, hW⟩)]
  intro x hx y hy hyz d hb
  rcases ball_drop hb with ⟨w, h1, h2, d', h3⟩ | h3
  · exact h x hx w (by simp [h1]) h2 d' h3
  · exact h x hx y (by simp [hy]) (fun q => hyz (by simp [q])) d h3

/-- **C118** Contraction: nothing is lost by dropping observations that are separated from `X`. -/
theorem C118_contraction (hw : g.WF) {X Y Z W : List Node} (hX : X ⊆ g.nodes) (hZ : Z ⊆ g.nodes) (hW : W ⊆ g.nodes)
    (h : Apart pick g X W Z) (h' : Apart pick g X Y (Z ++ W)) : Apart pick g X (Y ++ W) Z := by
  rw [apart_iff hw hX hZ] at h ⊢
  rw [apart_iff hw hX (List.append_subset.2 ⟨hZ, hW⟩)] at h'
  intro x hx y hy hyz d hb
  by_cases hyw : y ∈ W
  · exact h x hx y hyw hyz d hb
  · rcases ball_add (W := W) hb with ⟨w, h1, h2, d', h3, -⟩ | h3
    · exact h x hx w h1 h2 d' h3
    · exact h' x hx y ((List.mem_append.1 hy).resolve_right hyw) (by simp [hyz, hyw]) d h3

/-- **C118** Intersection: if `Y` says nothing once `W` is known and `W` says nothing once `Y` is known, neither says anything. -/
theorem C118_intersection (hw : g.WF) {X Y Z W : List Node} (hX : X ⊆ g.nodes) (hY : Y ⊆ g.nodes) (hZ : Z ⊆ g.nodes) (hW : W ⊆ g.nodes)
    (hd : ∀ y ∈ Y, y ∉ W) (h : Apart pick g X Y (Z ++ W)) (h' : Apart pick g X W (Z ++ Y)) : Apart pick g X (Y ++ W) Z := by
  rw [apart_iff hw hX (List.append_subset.2 ⟨hZ, hW⟩)] at h
  rw [apart_iff hw hX (List.append_subset.2 ⟨hZ, hY⟩)] at h'
  rw [apart_iff hw hX hZ]
  intro x hx y hy hyz d hb
  obtain ⟨u, hu, huz, e, hb⟩ : ∃ u ∈ Y ++ W, u ∉ Z ∧ ∃ e, Ball g (Z ++ (Y ++ W)) (StartUp x) u e := by
    rcases ball_add (W := Y ++ W) hb with ⟨w, h1, h2, d', -, h3⟩ | h3
    · exact ⟨w, h1, h2, d', h3⟩
    · exact ⟨y, hy, hyz, d, h3⟩
  rcases List.mem_append.1 hu with hu | hu
  · rcases ball_drop (Z := Z ++ W) (W := Y) (ball_congr (fun z => by simp only [List.mem_append]; tauto) hb) with ⟨w, h1, h2, d', h3⟩ | h3
    · exact h x hx w h1 h2 d' h3
    · exact h x hx u hu (by simp [huz, hd u hu]) e h3
  · rcases ball_drop (Z := Z ++ Y) (W := W) (ball_congr (fun z => by simp only [List.mem_append]; tauto) hb) with ⟨w, h1, h2, d', h3⟩ | h3
    · exact h' x hx w h1 h2 d' h3
    · exact h' x hx u hu (by simp only [List.mem_append, not_or]; exact ⟨huz, fun q => hd u q hu⟩) e h3

/-- **C118** Weak transitivity: a third node that is connected to both `x` and `y` connects them, unobserved or observed. -/
theorem C118_weak_transitivity (hw : g.WF) {x y w : Node} {Z : List Node} (hx : x ∈ g.nodes) (hy : y ∈ g.nodes) (hwn : w ∈ g.nodes) (hZ : Z ⊆ g.nodes)
    (h : isDConnected pick g x w Z = .ok true) (h' : isDConnected pick g w y Z = .ok true) :
    isDConnected pick g x y Z = .ok true ∨ (y ≠ w ∧ isDConnected pick g x y (Z ++ [w]) = .ok true) := by
  have hZw : Z ++ [w] ⊆ g.nodes := List.append_subset.2 ⟨hZ, by simpa using hwn⟩
  obtain ⟨hyz, -⟩ := (ok_true_iff hw hwn hZ).1 h'
  rw [C10_is_dconnected_symmetric g hw pick pick w y Z hwn hy hZ, ok_true_iff hw hy hZ] at h'
  rw [ok_true_iff hw hx hZ] at h ⊢
  rw [ok_true_iff hw hx hZw]
  have both : ∀ {s : Node}, (∃ d, Ball g Z (StartUp s) w d) → ∃ d, Ball g Z (StartUp s) w d ∧ Ball g (Z ++ [w]) (StartUp s) w d := by
    rintro s ⟨d, hb⟩
    rcases ball_add (W := [w]) hb with ⟨u, h1, -, d', h3, h4⟩ | h3
    · rw [List.mem_singleton.1 h1] at h3 h4; exact ⟨d', h3, h4⟩
    · exact ⟨d, hb, h3⟩
  obtain ⟨d1, b1, c1⟩ := both h.2
  obtain ⟨d2, b2, c2⟩ := both h'.2
  have hj := ball_join (I := StartUp x) b2
  cases d2 with
  | up => exact .inl ⟨hyz, hj.2.2 rfl d1 b1 (fun q => absurd q h.1)⟩
  | down =>
    cases d1 with
    | up => exact .inl ⟨hyz, hj.1 rfl b1 h.1⟩
    | down =>
      by_cases e : y = w
      · subst e; exact .inl ⟨hyz, _, b1⟩
      · exact .inr ⟨e, by simp [hyz, e], (ball_join (I := StartUp x) c2).2.1 rfl c1 ⟨w, by simp, .refl⟩⟩

/-- **C118** The local Markov property, and no more: given its parents, a node is connected exactly to itself and its descendants. -/
theorem C118_local_markov (hw : g.WF) {x y : Node} (hx : x ∈ g.nodes) :
    isDConnected pick g x y (g.parents x) = .ok true ↔ g.DescEq x y := by
  have hZ : g.parents x ⊆ g.nodes := fun p hp => (hw.edgeNodes _ _ (mem_parents.1 hp)).1
  rw [ok_true_iff hw hx hZ]
  have hfree : ∀ v, g.DescEq x v → ¬ g.AnZ (g.parents x) v := by
    rintro v hd ⟨z, hz, q⟩
    exact hw.acyclic x (TransGen.tail' (ReflTransGen.trans hd q) (mem_parents.1 hz))
  constructor
  · rintro ⟨hy, d, hb⟩
    have key : (d = .up → y = x ∨ y ∈ g.parents x) ∧ (d = .down → g.DescEq x y) := by
      clear hy
      induction hb with
      | init h => exact ⟨fun _ => .inl h.1, by rw [h.2]; simp⟩
      | upPar _ h1 h2 ih =>
        refine ⟨fun _ => ?_, by simp⟩
        rcases ih.1 rfl with e | e
        · exact .inr (mem_parents.2 (e ▸ h2))
        · exact absurd e h1
      | upCh _ h1 h2 ih =>
        refine ⟨by simp, fun _ => ?_⟩
        rcases ih.1 rfl with e | e
        · exact .single (e ▸ h2)
        · exact absurd e h1
      | downCh _ h1 h2 ih => exact ⟨by simp, fun _ => .tail (ih.2 rfl) h2⟩
      | downPar _ h1 h2 ih => exact absurd h1 (hfree _ (ih.2 rfl))
    cases d with
    | up =>
      rcases key.1 rfl with e | e
      · rw [e]; exact .refl
      · exact absurd e hy
    | down => exact key.2 rfl
  · intro hd
    exact ⟨fun h => hfree y hd ⟨y, h, .refl⟩, ball_descend (.init ⟨rfl, rfl⟩) hd (hfree x .refl)⟩

/-- **C118** The Markov blanket: a set of observations separates a node from all other nodes exactly if it contains the node's parents,
its children and the other parents of its children. -/
theorem C118_blanket (hw : g.WF) {x : Node} {Z : List Node} (hx : x ∈ g.nodes) (hZ : Z ⊆ g.nodes) (hxZ : x ∉ Z) :
    (∀ y ∈ g.nodes, y ≠ x → isDConnected pick g x y Z = .ok false) ↔ ∀ v, g.InBlanket x v → v ∈ Z := by
  have hne : ∀ {u v}, g.Edge u v → u ≠ v := fun h e => hw.acyclic _ (.single (e ▸ h))
  constructor
  · intro h v hv
    by_contra hvZ
    have hvn : v ∈ g.nodes := by
      rcases hv.2 with q | q | ⟨c, -, q⟩
      · exact (hw.edgeNodes _ _ q).1
      · exact (hw.edgeNodes _ _ q).2
      · exact (hw.edgeNodes _ _ q).1
    have hs := (ok_false_iff hw hx hZ).1 (h v hvn hv.1)
    rcases hv.2 with q | q | ⟨c, q1, q2⟩
    · exact hs ⟨hvZ, .up, .upPar (.init ⟨rfl, rfl⟩) hxZ q⟩
    · exact hs ⟨hvZ, .down, .upCh (.init ⟨rfl, rfl⟩) hxZ q⟩
    · have hc : c ∈ Z := by
        by_contra hcZ
        exact (ok_false_iff hw hx hZ).1 (h c (hw.edgeNodes _ _ q1).2 (hne q1).symm) ⟨hcZ, .down, .upCh (.init ⟨rfl, rfl⟩) hxZ q1⟩
      exact hs ⟨hvZ, .up, .downPar (.upCh (.init ⟨rfl, rfl⟩) hxZ q1) ⟨c, hc, .refl⟩ q2⟩
  · intro h y hyn hyx
    rw [ok_false_iff hw hx hZ]
    rintro ⟨hy, d, hb⟩
    have key : (d = .up → y = x ∨ y ∈ Z) ∧ (d = .down → g.Edge x y) := by
      clear hy hyx hyn
      induction hb with
      | init h => exact ⟨fun _ => .inl h.1, by rw [h.2]; simp⟩
      | upPar _ h1 h2 ih =>
        refine ⟨fun _ => ?_, by simp⟩
        rcases ih.1 rfl with e | e
        · exact .inr (h _ ⟨e ▸ hne h2, .inl (e ▸ h2)⟩)
        · exact absurd e h1
      | upCh _ h1 h2 ih =>
        refine ⟨by simp, fun _ => ?_⟩
        rcases ih.1 rfl with e | e
        · exact e ▸ h2
        · exact absurd e h1
      | downCh _ h1 h2 ih => exact absurd (h _ ⟨(hne (ih.2 rfl)).symm, .inr (.inl (ih.2 rfl))⟩) h1
      | downPar _ h1 h2 ih =>
        rename_i v p _
        refine ⟨fun _ => ?_, by simp⟩
        by_cases e : p = x
        · exact .inl e
        · exact .inr (h _ ⟨e, .inr (.inr ⟨v, ih.2 rfl, h2⟩)⟩)
    cases d with
    | up => exact (key.1 rfl).elim hyx hy
    | down => exact hy (h _ ⟨hyx, .inr (.inl (key.2 rfl))⟩)

/-- **C118** Two nodes are not joined by an edge exactly if some set of other nodes separates them; the parents of one of them do. -/
theorem C118_adjacent (hw : g.WF) {x y : Node} (hx : x ∈ g.nodes) (hy : y ∈ g.nodes) (hxy : x ≠ y) :
    (¬ g.Adj x y ↔ ∃ Z, Z ⊆ g.nodes ∧ x ∉ Z ∧ y ∉ Z ∧ isDConnected pick g x y Z = .ok false) ∧
    (¬ g.Adj x y → isDConnected pick g x y (g.parents x) = .ok false ∨ isDConnected pick g x y (g.parents y) = .ok false) := by
  have hZ : ∀ v, g.parents v ⊆ g.nodes := fun v p hp => (hw.edgeNodes _ _ (mem_parents.1 hp)).1
  have hself : ∀ v, v ∉ g.parents v := fun v h => hw.acyclic v (.single (mem_parents.1 h))
  have hbool : ∀ {s t : Node} {Z : List Node}, s ∈ g.nodes → Z ⊆ g.nodes → isDConnected pick g s t Z ≠ .ok true → isDConnected pick g s t Z = .ok false := by
    intro s t Z hs hz hn
    obtain ⟨b, h1, -⟩ := isDConnected_ok hw pick (t := t) hs hz
    rw [h1] at hn ⊢
    cases b <;> simp_all
  have two : ¬ g.Adj x y → isDConnected pick g x y (g.parents x) = .ok false ∨ isDConnected pick g x y (g.parents y) = .ok false := by
    intro _
    by_cases hd : g.DescEq x y
    · right
      rw [C10_is_dconnected_symmetric g hw pick pick x y _ hx hy (hZ y)]
      refine hbool hy (hZ y) (fun h => ?_)
      have := (C118_local_markov hw hy).1 h
      rcases ReflTransGen.cases_head hd with e | ⟨c, hc, hq⟩
      · exact hxy e
      · exact hw.acyclic x (TransGen.head' hc (ReflTransGen.trans hq this))
    · left
      exact hbool hx (hZ x) (fun h => hd ((C118_local_markov hw hx).1 h))
  refine ⟨⟨fun h => ?_, ?_⟩, two⟩
  · rcases two h with q | q
    · exact ⟨_, hZ x, hself x, fun e => h (.inr (mem_parents.1 e)), q⟩
    · exact ⟨_, hZ y, fun e => h (.inl (mem_parents.1 e)), hself y, q⟩
  · rintro ⟨Z, hZn, h1, h2, h3⟩ hadj
    refine (ok_false_iff hw hx hZn).1 h3 ⟨h2, ?_⟩
    rcases hadj with q | q
    · exact ⟨_, .upCh (.init ⟨rfl, rfl⟩) h1 q⟩
    · exact ⟨_, .upPar (.init ⟨rfl, rfl⟩) h1 q⟩

/-- **C118** Moralisation: `x` and `y` are d-connected given `Z` exactly if, among the nodes from which `x`, `y` or `Z` can be reached,
with edges between parents of a common child added and directions ignored, there is a path from `x` to `y` outside `Z`. -/
theorem C118_moral (hw : g.WF) {x y : Node} {Z : List Node} (hx : x ∈ g.nodes) (hZ : Z ⊆ g.nodes) (hxZ : x ∉ Z) (hyZ : y ∉ Z) :
    isDConnected pick g x y Z = .ok true ↔
      ReflTransGen (fun u w => g.Moral (fun v => ∃ t, (t = x ∨ t = y ∨ t ∈ Z) ∧ g.DescEq v t) u w ∧ w ∉ Z) x y := by
  rw [ok_true_iff hw hx hZ]
  set A : Node → Prop := fun v => ∃ t, (t = x ∨ t = y ∨ t ∈ Z) ∧ g.DescEq v t with hA
  have hup : ∀ {u v}, g.Edge u v → A v → A u := fun h ⟨t, h1, h2⟩ => ⟨t, h1, .head h h2⟩
  have hAx : A x := ⟨x, .inl rfl, .refl⟩
  have hAy : A y := ⟨y, .inr (.inl rfl), .refl⟩
  have hAz : ∀ {v}, g.AnZ Z v → A v := fun ⟨z, h1, h2⟩ => ⟨z, .inr (.inr h1), h2⟩
  constructor
  · rintro ⟨-, d, hb⟩
    have key : ∀ v d, Ball g Z (StartUp x) v d →
        (d = .up → A v ∧ (v ∉ Z → ReflTransGen (fun u w => g.Moral A u w ∧ w ∉ Z) x v)) ∧
        (d = .down → A v → ∃ u, g.Edge u v ∧ ReflTransGen (fun u w => g.Moral A u w ∧ w ∉ Z) x u) := by
      intro v d hb
      induction hb with
      | init h => obtain ⟨rfl, rfl⟩ := h; exact ⟨fun _ => ⟨hAx, fun _ => .refl⟩, by simp⟩
      | upPar _ h1 h2 ih =>
        obtain ⟨i1, i2⟩ := ih.1 rfl
        exact ⟨fun _ => ⟨hup h2 i1, fun hp => .tail (i2 h1) ⟨⟨i1, hup h2 i1, .inr (.inl h2)⟩, hp⟩⟩, by simp⟩
      | upCh _ h1 h2 ih =>
        obtain ⟨i1, i2⟩ := ih.1 rfl
        exact ⟨by simp, fun _ _ => ⟨_, h2, i2 h1⟩⟩
      | downCh _ h1 h2 ih =>
        refine ⟨by simp, fun _ hc => ⟨_, h2, ?_⟩⟩
        obtain ⟨u, q1, q2⟩ := ih.2 rfl (hup h2 hc)
        exact .tail q2 ⟨⟨hup q1 (hup h2 hc), hup h2 hc, .inl q1⟩, h1⟩
      | downPar _ h1 h2 ih =>
        obtain ⟨u, q1, q2⟩ := ih.2 rfl (hAz h1)
        have := hAz h1
        exact ⟨fun _ => ⟨hup h2 this, fun hp => .tail q2 ⟨⟨hup q1 this, hup h2 this, .inr (.inr ⟨_, this, q1, h2⟩)⟩, hp⟩⟩, by simp⟩
    cases d with
    | up => exact ((key y _ hb).1 rfl).2 hyZ
    | down =>
      obtain ⟨u, q1, q2⟩ := (key y _ hb).2 rfl hAy
      exact .tail q2 ⟨⟨hup q1 hAy, hAy, .inl q1⟩, hyZ⟩
  · intro h
    refine ⟨hyZ, ?_⟩
    by_contra hno
    have start : ∀ {c w}, A c → ¬ g.AnZ Z c → g.Edge w c → (∃ d, Ball g Z (StartUp x) c d) → ∃ d, Ball g Z (StartUp x) w d := by
      rintro c w ⟨t, ht, hd⟩ hz e ⟨d, hb⟩
      have hcz : c ∉ Z := fun q => hz ⟨c, q, .refl⟩
      rcases ht with rfl | rfl | ht
      · exact ⟨_, .upPar (ball_climb (.init ⟨rfl, rfl⟩) hd hz) hcz e⟩
      · exact absurd (ball_descend hb hd hz) hno
      · exact absurd ⟨t, ht, hd⟩ hz
    have key : ∀ v, ReflTransGen (fun u w => g.Moral A u w ∧ w ∉ Z) x v → v ∉ Z ∧ ∃ d, Ball g Z (StartUp x) v d := by
      intro v hv
      induction hv with
      | refl => exact ⟨hxZ, .up, .init ⟨rfl, rfl⟩⟩
      | tail _ hs ih =>
        rename_i u w _
        obtain ⟨⟨hu, hwA, hm⟩, hwZ⟩ := hs
        obtain ⟨huZ, d, hb⟩ := ih
        refine ⟨hwZ, ?_⟩
        have hdown : ∀ {c}, g.Edge u c → Ball g Z (StartUp x) c .down := by
          intro c hc
          cases d with
          | up => exact .upCh hb huZ hc
          | down => exact .downCh hb huZ hc
        rcases hm with e | e | ⟨c, hc, e1, e2⟩
        · exact ⟨_, hdown e⟩
        · cases d with
          | up => exact ⟨_, .upPar hb huZ e⟩
          | down =>
            by_cases hz : g.AnZ Z u
            · exact ⟨_, .downPar hb hz e⟩
            · exact start hu hz e ⟨_, hb⟩
        · by_cases hz : g.AnZ Z c
          · exact ⟨_, .downPar (hdown e1) hz e2⟩
          · exact start hc hz e2 ⟨_, hdown e1⟩
    exact hno (key y h).2

/-- **C118** Adding edges never separates: what is d-connected stays d-connected. -/
theorem C118_more_edges {g' : Graph} (hw : g.WF) (hw' : g'.WF) {x y : Node} {Z : List Node} (hx : x ∈ g.nodes) (hZ : Z ⊆ g.nodes)
    (hn : g.nodes ⊆ g'.nodes) (he : ∀ u v, g.Edge u v → g'.Edge u v) (h : isDConnected pick g x y Z = .ok true) :
    isDConnected pick g' x y Z = .ok true := by
  rw [ok_true_iff hw hx hZ] at h
  rw [ok_true_iff hw' (hn hx) (fun z hz => hn (hZ hz))]
  obtain ⟨hy, d, hb⟩ := h
  obtain ⟨-, d', hb'⟩ := Reached.mono (g := g') (g' := g) (S := [x]) he ⟨hy, d, ball_union.2 ⟨x, by simp, hb⟩⟩
  obtain ⟨s, hs, hb'⟩ := ball_union.1 hb'
  rw [List.mem_singleton.1 hs] at hb'
  exact ⟨hy, d', hb'⟩

end

/-- The hypotheses are met: `S ← A → M ← B → T` with `M → W`. -/
theorem C118_example :
    exM.WF ∧ ["S", "A"] ⊆ exM.nodes ∧
    (∃ Z W, W ≠ [] ∧ Apart (fun _ _ => 0) exM ["S", "A"] (["T"] ++ W) Z) ∧
    (∃ Z W, W ≠ [] ∧ Apart (fun _ _ => 0) exM ["S", "A"] W Z ∧ Apart (fun _ _ => 0) exM ["S", "A"] ["T"] (Z ++ W)) ∧
    (Apart (fun _ _ => 0) exM ["S"] ["T"] (["A"] ++ ["B"]) ∧ Apart (fun _ _ => 0) exM ["S"] ["B"] (["A"] ++ ["T"])) ∧
    (isDConnected (fun _ _ => 0) exM "S" "W" [] = .ok true ∧ isDConnected (fun _ _ => 0) exM "W" "T" [] = .ok true ∧
      isDConnected (fun _ _ => 0) exM "S" "T" [] = .ok false ∧ isDConnected (fun _ _ => 0) exM "S" "T" ["W"] = .ok true) ∧
    (isDConnected (fun _ _ => 0) exM "M" "W" (exM.parents "M") = .ok true ∧ isDConnected (fun _ _ => 0) exM "M" "T" (exM.parents "M") = .ok false) ∧
    (∀ y ∈ exM.nodes, y ≠ "B" → isDConnected (fun _ _ => 0) exM "B" y ["T", "M", "A"] = .ok false) ∧
    isDConnected (fun _ _ => 0) exM "B" "A" ["T", "M"] = .ok true := by
  refine ⟨exM_wf, by decide, ⟨[], ["B"], by decide, ?_⟩, ⟨[], ["B"], by decide, ?_, ?_⟩, ⟨?_, ?_⟩, ?_⟩ <;> (try unfold Apart) <;> decide +kernel

end Verif

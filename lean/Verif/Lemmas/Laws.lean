import Verif.Spec.Laws
import Verif.Lemmas.Markov
import Verif.Lemmas.Build

/-!
# Active trails when observations are added or dropped
-/

namespace Verif
open Relation Graph

theorem anz_append {g : Graph} {Z W : List Node} {v : Node} : g.AnZ (Z ++ W) v ↔ g.AnZ Z v ∨ g.AnZ W v := by
  simp only [AnZ, List.mem_append, or_and_right, exists_or]

/-- descending without meeting an observed node -/
theorem ball_descend {g : Graph} {Z : List Node} {I : Node → Dir → Prop} {v w : Node} {d : Dir} (hb : Ball g Z I v d) (hd : g.DescEq v w)
    (hz : ¬ g.AnZ Z v) : ∃ d', Ball g Z I w d' := by
  induction hd using ReflTransGen.head_induction_on generalizing d with
  | refl => exact ⟨d, hb⟩
  | head h1 h2 ih =>
    rename_i a c
    have ha : a ∉ Z := fun h => hz ⟨a, h, .refl⟩
    have hc : ¬ g.AnZ Z c := fun ⟨z, h, q⟩ => hz ⟨z, h, .head h1 q⟩
    cases d with
    | up => exact ih (.upCh hb ha h1) hc
    | down => exact ih (.downCh hb ha h1) hc

/-- climbing without meeting an observed node -/
theorem ball_climb {g : Graph} {Z : List Node} {I : Node → Dir → Prop} {v w : Node} (hb : Ball g Z I w .up) (hd : g.DescEq v w)
    (hz : ¬ g.AnZ Z v) : Ball g Z I v .up := by
  induction hd using ReflTransGen.head_induction_on with
  | refl => exact hb
  | head h1 h2 ih =>
    rename_i a c
    have hc : ¬ g.AnZ Z c := fun ⟨z, h, q⟩ => hz ⟨z, h, .head h1 q⟩
    exact .upPar (ih hc) (fun h => hc ⟨c, h, .refl⟩) h1

/-- dropping observations keeps a trail, or one of them is reached -/
theorem ball_drop {g : Graph} {Z W : List Node} {I : Node → Dir → Prop} {v : Node} {d : Dir} (hb : Ball g (Z ++ W) I v d) :
    (∃ w ∈ W, w ∉ Z ∧ ∃ d', Ball g Z I w d') ∨ Ball g Z I v d := by
  induction hb with
  | init h => exact .inr (.init h)
  | upPar _ h1 h2 ih => exact ih.imp_right (fun ih => .upPar ih (fun h => h1 (by simp [h])) h2)
  | upCh _ h1 h2 ih => exact ih.imp_right (fun ih => .upCh ih (fun h => h1 (by simp [h])) h2)
  | downCh _ h1 h2 ih => exact ih.imp_right (fun ih => .downCh ih (fun h => h1 (by simp [h])) h2)
  | downPar _ h1 h2 ih =>
    rename_i v p _
    rcases ih with ih | ih
    · exact .inl ih
    · by_cases hz : g.AnZ Z v
      · exact .inr (.downPar ih hz h2)
      · obtain ⟨w, hw, hd⟩ := (anz_append.1 h1).resolve_left hz
        exact .inl ⟨w, hw, fun h => hz ⟨w, h, hd⟩, ball_descend ih hd hz⟩

/-- adding observations keeps a trail, or one of them is reached before -/
theorem ball_add {g : Graph} {Z W : List Node} {I : Node → Dir → Prop} {v : Node} {d : Dir} (hb : Ball g Z I v d) :
    (∃ w ∈ W, w ∉ Z ∧ ∃ d', Ball g Z I w d' ∧ Ball g (Z ++ W) I w d') ∨ Ball g (Z ++ W) I v d := by
  induction hb with
  | init h => exact .inr (.init h)
  | upPar hb h1 h2 ih =>
    rename_i v p
    rcases ih with ih | ih
    · exact .inl ih
    · by_cases hv : v ∈ W
      · exact .inl ⟨v, hv, h1, _, hb, ih⟩
      · exact .inr (.upPar ih (by simp [h1, hv]) h2)
  | upCh hb h1 h2 ih =>
    rename_i v p
    rcases ih with ih | ih
    · exact .inl ih
    · by_cases hv : v ∈ W
      · exact .inl ⟨v, hv, h1, _, hb, ih⟩
      · exact .inr (.upCh ih (by simp [h1, hv]) h2)
  | downCh hb h1 h2 ih =>
    rename_i v p
    rcases ih with ih | ih
    · exact .inl ih
    · by_cases hv : v ∈ W
      · exact .inl ⟨v, hv, h1, _, hb, ih⟩
      · exact .inr (.downCh ih (by simp [h1, hv]) h2)
  | downPar _ h1 h2 ih => exact ih.imp_right (fun ih => .downPar ih (anz_append.2 (.inl h1)) h2)

theorem ball_trans {g : Graph} {Z : List Node} {I : Node → Dir → Prop} {v w : Node} {d : Dir} (h : Ball g Z I w .up)
    (h' : Ball g Z (StartUp w) v d) : Ball g Z I v d := by
  induction h' with
  | init h' => obtain ⟨rfl, rfl⟩ := h'; exact h
  | upPar _ h1 h2 ih => exact .upPar ih h1 h2
  | upCh _ h1 h2 ih => exact .upCh ih h1 h2
  | downCh _ h1 h2 ih => exact .downCh ih h1 h2
  | downPar _ h1 h2 ih => exact .downPar ih h1 h2

/-- two trails that meet can be joined -/
theorem ball_join {g : Graph} {Z : List Node} {I : Node → Dir → Prop} {y v : Node} {d : Dir} (h : Ball g Z (StartUp y) v d) :
    (d = .down → Ball g Z I v .up → v ∉ Z → ∃ e, Ball g Z I y e) ∧ (d = .down → Ball g Z I v .down → g.AnZ Z v → ∃ e, Ball g Z I y e) ∧
    (d = .up → ∀ e, Ball g Z I v e → (v ∈ Z → v = y) → ∃ e, Ball g Z I y e) := by
  induction h with
  | init h =>
    obtain ⟨rfl, rfl⟩ := h
    exact ⟨by simp, by simp, fun _ e h _ => ⟨e, h⟩⟩
  | upPar _ h1 h2 ih =>
    rename_i v p _
    refine ⟨by simp, by simp, fun _ e h hp => ?_⟩
    by_cases hz : p ∈ Z
    · exact ⟨e, hp hz ▸ h⟩
    · cases e with
      | up => exact ih.2.2 rfl _ (.upCh h hz h2) (fun q => absurd q h1)
      | down => exact ih.2.2 rfl _ (.downCh h hz h2) (fun q => absurd q h1)
  | upCh _ h1 h2 ih =>
    exact ⟨fun _ h hz => ih.2.2 rfl _ (.upPar h hz h2) (fun q => absurd q h1), fun _ h hz => ih.2.2 rfl _ (.downPar h hz h2) (fun q => absurd q h1), by simp⟩
  | downCh _ h1 h2 ih =>
    exact ⟨fun _ h hz => ih.1 rfl (.upPar h hz h2) h1, fun _ h hz => ih.1 rfl (.downPar h hz h2) h1, by simp⟩
  | downPar _ h1 h2 ih =>
    rename_i v p _
    refine ⟨by simp, by simp, fun _ e h hp => ?_⟩
    by_cases hz : p ∈ Z
    · exact ⟨e, hp hz ▸ h⟩
    · cases e with
      | up => exact ih.2.1 rfl (.upCh h hz h2) h1
      | down => exact ih.2.1 rfl (.downCh h hz h2) h1

theorem ball_congr {g : Graph} {Z Z' : List Node} {I : Node → Dir → Prop} (hz : ∀ z, z ∈ Z ↔ z ∈ Z') {v : Node} {d : Dir} (h : Ball g Z I v d) :
    Ball g Z' I v d := by
  induction h with
  | init h => exact .init h
  | upPar _ h1 h2 ih => exact .upPar ih (fun h => h1 ((hz _).2 h)) h2
  | upCh _ h1 h2 ih => exact .upCh ih (fun h => h1 ((hz _).2 h)) h2
  | downCh _ h1 h2 ih => exact .downCh ih (fun h => h1 ((hz _).2 h)) h2
  | downPar _ h1 h2 ih => obtain ⟨z, h, q⟩ := h1; exact .downPar ih ⟨z, (hz _).1 h, q⟩ h2

theorem ok_true_iff {g : Graph} (hw : g.WF) {pick : Pick} {x y : Node} {Z : List Node} (hx : x ∈ g.nodes) (hZ : Z ⊆ g.nodes) :
    isDConnected pick g x y Z = .ok true ↔ y ∉ Z ∧ ∃ d, Ball g Z (StartUp x) y d := by
  obtain ⟨b, h1, h2⟩ := isDConnected_ok hw pick (t := y) hx hZ
  rw [h1, Except.ok.injEq, h2]

theorem ok_false_iff {g : Graph} (hw : g.WF) {pick : Pick} {x y : Node} {Z : List Node} (hx : x ∈ g.nodes) (hZ : Z ⊆ g.nodes) :
    isDConnected pick g x y Z = .ok false ↔ ¬ (y ∉ Z ∧ ∃ d, Ball g Z (StartUp x) y d) := by
  obtain ⟨b, h1, h2⟩ := isDConnected_ok hw pick (t := y) hx hZ
  rw [h1, Except.ok.injEq, ← Bool.not_eq_true, h2]

theorem apart_iff {g : Graph} (hw : g.WF) {pick : Pick} {X Y Z : List Node} (hX : X ⊆ g.nodes) (hZ : Z ⊆ g.nodes) :
    Apart pick g X Y Z ↔ ∀ x ∈ X, ∀ y ∈ Y, y ∉ Z → ∀ d, ¬ Ball g Z (StartUp x) y d := by
  unfold Apart
  refine forall₂_congr (fun x hx => forall₂_congr (fun y _ => ?_))
  obtain ⟨b, h1, h2⟩ := isDConnected_ok hw pick (t := y) (hX hx) hZ
  rw [h1, Except.ok.injEq, ← Bool.not_eq_true, h2]
  simp only [not_and, not_exists]

end Verif

import Verif.Spec.Regime
import Verif.Lemmas.Regime
import Verif.Lemmas.Backdoor

/-!
# Lemmas for the rules of the do-calculus
-/

namespace Verif
open Relation Graph

/-- a descent to a node that `x` does not lead to uses no edge into `x` -/
theorem descEq_avoids {g : Graph} {x b z : Node} (h : g.DescEq b z) (hx : ¬ g.DescEq x z) : (Net.CutGraph g [x]).DescEq b z := by
  induction h using ReflTransGen.head_induction_on with
  | refl => exact .refl
  | head h1 h2 ih =>
    rename_i b c
    refine .head (Net.mem_cutGraph.2 ⟨h1, ?_⟩) ih
    rintro hc
    rw [List.mem_singleton] at hc
    exact hx (hc ▸ h2)

/-- d-connection from a new parent of `x`: if something below `x` is observed, d-connection from `x`; otherwise d-connection from `x` when
the edges into `x` are removed -/
theorem into_iff {g : Graph} (hw : g.WF) {Z : List Node} {x y : Node} (hx : x ∉ Z) :
    Into g Z x y ↔ ((∃ z ∈ Z, g.DescEq x z) ∧ g.DConn x y Z) ∨ ((¬ ∃ z ∈ Z, g.DescEq x z) ∧ (Net.CutGraph g [x]).DConn x y Z) := by
  have hsub : ∀ {u v}, (Net.CutGraph g [x]).Edge u v ↔ g.Edge u v ∧ v ≠ x := fun {u v} => by rw [Net.mem_cutGraph]; simp
  have hint : ∀ {r l a b c r'}, (x :: r).Nodup → x :: r = l ++ a :: b :: c :: r' → b ≠ x := by
    rintro r l a b c r' hnd e rfl
    rw [List.nodup_cons] at hnd
    rcases l with _ | ⟨w, l⟩
    · simp at e
      exact hnd.1 (by rw [e.2]; simp)
    · simp at e
      exact hnd.1 (by rw [e.2]; simp)
  constructor
  · rintro ⟨hy, r, hp, ha, h1, h2⟩
    by_cases hz : ∃ z ∈ Z, g.DescEq x z
    · exact Or.inl ⟨hz, hx, hy, _, hp, ha⟩
    · refine Or.inr ⟨hz, hx, hy, x :: r, ⟨rfl, hp.2.1, ?_, hp.2.2.2⟩, ?_⟩
      · rw [isChain_iff_split]
        intro l a b s e
        have hadj := isChain_iff_split.1 hp.2.2.1 l a b s e
        have hbx : b ≠ x := by
          rintro rfl
          have hnd := List.nodup_cons.1 hp.2.2.2
          rcases l with _ | ⟨w, l⟩
          · simp at e
            exact hnd.1 (by rw [e.2]; simp)
          · simp at e
            exact hnd.1 (by rw [e.2]; simp)
        rcases hadj with h | h
        · exact Or.inl (hsub.2 ⟨h, hbx⟩)
        · by_cases hax : a = x
          · exfalso
            subst hax
            rcases l with _ | ⟨w, l⟩
            · simp at e
              exact hz ((h2 b s e).1 h)
            · simp at e
              exact (List.nodup_cons.1 hp.2.2.2).1 (by rw [e.2]; simp)
          · exact Or.inr (hsub.2 ⟨h, hax⟩)
      · intro l a b c s e
        have k := ha l a b c s e
        have hbx := hint hp.2.2.2 e
        refine ⟨fun ⟨h, h'⟩ => ?_, fun h => k.2 (fun q => h ⟨hsub.2 ⟨q.1, hbx⟩, hsub.2 ⟨q.2, hbx⟩⟩)⟩
        obtain ⟨z, hz1, hz2⟩ := k.1 ⟨(hsub.1 h).1, (hsub.1 h').1⟩
        exact ⟨z, hz1, descEq_avoids hz2 (fun q => hz ⟨z, hz1, q⟩)⟩
  · rintro (⟨hz, -, hy, p, hp, ha⟩ | ⟨hz, -, hy, p, hp, ha⟩)
    · obtain ⟨r, rfl⟩ : ∃ r, p = x :: r := by
        rcases p with _ | ⟨w, r⟩
        · simp [IsUndirPath] at hp
        · have := hp.1; simp at this; exact ⟨r, by rw [this]⟩
      exact ⟨hy, r, hp, ha, fun _ => hx, fun c r' _ => ⟨fun _ => hz, fun _ => hx⟩⟩
    · obtain ⟨r, rfl⟩ : ∃ r, p = x :: r := by
        rcases p with _ | ⟨w, r⟩
        · simp [IsUndirPath] at hp
        · have := hp.1; simp at this; exact ⟨r, by rw [this]⟩
      refine ⟨hy, r, ⟨rfl, hp.2.1, hp.2.2.1.imp (fun u v h => h.imp (fun h => (hsub.1 h).1) (fun h => (hsub.1 h).1)), hp.2.2.2⟩, ?_, fun _ => hx,
        fun c r' e => ⟨fun hc => ?_, fun _ => hx⟩⟩
      · intro l a b c s e
        have k := ha l a b c s e
        have hbx := hint hp.2.2.2 e
        refine ⟨fun ⟨h, h'⟩ => ?_, fun h => k.2 (fun q => h ⟨(hsub.1 q.1).1, (hsub.1 q.2).1⟩)⟩
        obtain ⟨z, hz1, hz2⟩ := k.1 ⟨hsub.2 ⟨h, hbx⟩, hsub.2 ⟨h', hbx⟩⟩
        exact ⟨z, hz1, ReflTransGen.mono (fun u v h => (hsub.1 h).1) _ _ hz2⟩
      · subst e
        rcases isChain_iff_split.1 hp.2.2.1 [] x c r' rfl with h | h
        · exact absurd hc (fun hc => no_two_cycle hw.acyclic hc (hsub.1 h).1)
        · exact absurd rfl (hsub.1 h).2

namespace BN

/-- for events that do not mention `x`, muting `x` is setting `x` -/
theorem W_mute_set {B : BN} (hB : B.Prob) {x : Node} {vx : Outcome} (hx : x ∈ B.g.nodes) (hv : vx ∈ B.dom x)
    {f : Assign → Rat} (hf : DependsOn f (fun v => v ∈ B.g.nodes ∧ v ≠ x)) :
    (B.mute x vx).W f = (B.withRule x (fun a => if a x = vx then 1 else 0)).W f := by
  have hM := BN.mute_prob hB hv hx
  have h1 := BN.W_nondesc hM (d := x) (σ := (B.mute x vx).k x) (τ := fun a => if a x = vx then 1 else 0) (BN.isRule_k hM hx)
    (BN.isRule_ind hM hx hv) (h := f) (hf.mono (fun v hv' => ⟨hv'.1, fun hd => by
      rcases ReflTransGen.cases_head hd with e | ⟨c, hc, -⟩
      · exact hv'.2 e.symm
      · exact (mute_edge.1 hc).2 rfl⟩))
  rw [withRule_self] at h1
  rw [h1]
  unfold BN.W
  show sumOver B.dom B.g.nodes _ _ = sumOver B.dom B.g.nodes _ _
  congr 1
  funext a
  congr 1
  unfold BN.prod
  by_cases e : a x = vx
  · refine congrArg List.prod (List.map_congr_left (fun v _ => ?_))
    show (if v = x then (fun a : Assign => if a x = vx then (1 : Rat) else 0) else fun a => if v = x then _ else B.k v (Assign.upd a x vx)) a =
      (if v = x then (fun a : Assign => if a x = vx then (1 : Rat) else 0) else B.k v) a
    by_cases e' : v = x
    · subst e'; simp
    · simp only [if_neg e']
      congr 1
      funext u
      by_cases hu : u = x
      · rw [hu, Assign.upd_same, e]
      · rw [Assign.upd_ne _ _ hu]
  · refine (List.prod_eq_zero (List.mem_map.2 ⟨x, hx, ?_⟩)).trans (List.prod_eq_zero (List.mem_map.2 ⟨x, hx, ?_⟩)).symm
    · show (if x = x then (fun a : Assign => if a x = vx then (1 : Rat) else 0) else _) a = 0
      simp [e]
    · show (if x = x then (fun a : Assign => if a x = vx then (1 : Rat) else 0) else B.k x) a = 0
      simp [e]

/-- Observing `x` and setting `x` have the same consequences for what is separated from `x` when `x` has no influence. -/
theorem observe_set {B : BN} (hB : B.Prob) {x : Node} {vx : Outcome} (hx : x ∈ B.g.nodes) (hv : vx ∈ B.dom x)
    {Z T : List Node} (hZ : Z ⊆ B.g.nodes) (hxZ : x ∉ Z) (hT : ∀ t ∈ T, t ∈ B.g.nodes ∧ t ≠ x ∧ ¬ Reached (Mute B.g x) Z [x] t)
    (z : Assign) {h : Assign → Rat} (hh : DependsOn h (fun v => v ∈ Z ∨ v ∈ T)) :
    B.W (fun a => if a x = vx then BN.at_ Z z h a else 0) * (B.withRule x (fun a => if a x = vx then 1 else 0)).W (BN.at_ Z z (fun _ => 1)) =
      B.W (fun a => if a x = vx then BN.at_ Z z (fun _ => 1) a else 0) * (B.withRule x (fun a => if a x = vx then 1 else 0)).W (BN.at_ Z z h) := by
  have hM := BN.mute_prob hB hv hx
  have key := BN.ci hM (Z := Z) (S := [x]) (T := T) (fun v hv => hZ hv) (fun t ht => (hT t ht).2.2) z
    (f := fun a => if a x = vx then 1 else 0) (h := h)
    (fun a b hab => by simp only [hab x (Or.inr ⟨by simp, hx⟩)])
    (hh.mono (fun v hv => hv.imp id (fun ht => ⟨ht, (hT v ht).1⟩)))
  have hdep : ∀ {h : Assign → Rat}, DependsOn h (fun v => v ∈ Z ∨ v ∈ T) → DependsOn (BN.at_ Z z h) (fun v => v ∈ B.g.nodes ∧ v ≠ x) := by
    intro h hh a b hab
    have e1 : ∀ v ∈ Z, a v = b v := fun v hv => hab v ⟨hZ hv, fun e => hxZ (e ▸ hv)⟩
    have e2 : (∀ v ∈ Z, a v = z v) ↔ ∀ v ∈ Z, b v = z v := forall₂_congr (fun v hv => by rw [e1 v hv])
    have e3 : h a = h b := hh a b (fun v hv => hv.elim (e1 v) (fun ht => hab v ⟨(hT v ht).1, (hT v ht).2.1⟩))
    unfold BN.at_
    simp only [e2, e3]
  rw [W_mute_set hB hx hv (hdep hh), W_mute_set hB hx hv (hdep (dependsOn_const 1 _))] at key
  rw [← BN.W_mute (B := B) (f := BN.at_ Z z h), ← BN.W_mute (B := B) (f := BN.at_ Z z (fun _ => 1))]
  convert key using 3
  · funext a
    unfold BN.at_
    by_cases h1 : a x = vx <;> by_cases h2 : ∀ v ∈ Z, a v = z v <;> simp [h1, h2]
  · funext a
    unfold BN.at_
    by_cases h1 : a x = vx <;> by_cases h2 : ∀ v ∈ Z, a v = z v <;> simp [h1, h2]

/-- setting `x` makes what is observed together with `x` at least as likely -/
theorem observe_le_set {B : BN} (hB : B.Prob) {x : Node} {vx : Outcome} (hx : x ∈ B.g.nodes) (hv : vx ∈ B.dom x)
    {f : Assign → Rat} (h0 : ∀ a, 0 ≤ f a) (hf : DependsOn f (fun v => v ∈ B.g.nodes ∧ v ≠ x)) :
    B.W (fun a => if a x = vx then f a else 0) ≤ (B.withRule x (fun a => if a x = vx then 1 else 0)).W f := by
  have hM := BN.mute_prob hB hv hx
  rw [← W_mute_set hB hx hv hf, ← BN.W_mute]
  refine BN.W_le hM (fun a _ => ?_)
  split
  · exact le_refl _
  · exact h0 a

end BN

namespace Net

/-- one more intervention replaces one more mechanism -/
theorem doBN_cons {net : Net} {x : Node} {v : Outcome} {int : List (Node × Outcome)} (hx : x ∉ int.map (·.1)) (F : Assign → Rat) :
    (net.doBN ((x, v) :: int)).W F = ((net.doBN int).withRule x (fun a => if a x = v then 1 else 0)).W F := by
  unfold BN.W BN.prod doBN BN.withRule CutGraph
  apply sumOver_congr
  intro b _ _
  congr 2
  apply List.map_congr_left
  intro w _
  show (if w ∈ ((x, v) :: int).map (·.1) then (if ∀ p ∈ (x, v) :: int, p.1 = w → b w = p.2 then (1 : Rat) else 0) else net.kernel w b) =
    (if w = x then (fun a : Assign => if a x = v then (1 : Rat) else 0)
      else fun a => if w ∈ int.map (·.1) then (if ∀ p ∈ int, p.1 = w → a w = p.2 then 1 else 0) else net.kernel w a) b
  by_cases e : w = x
  · subst e
    have : (∀ p ∈ (w, v) :: int, p.1 = w → b w = p.2) ↔ b w = v := by
      constructor
      · intro h; exact h (w, v) (by simp) rfl
      · rintro h p hp hw
        rcases List.mem_cons.1 hp with rfl | hp
        · exact h
        · exact absurd (hw ▸ List.mem_map_of_mem hp) hx
    rw [if_pos (by simp), if_pos rfl]
    exact if_congr this rfl rfl
  · have e1 : (∀ p ∈ (x, v) :: int, p.1 = w → b w = p.2) ↔ ∀ p ∈ int, p.1 = w → b w = p.2 := by
      constructor
      · intro h p hp; exact h p (List.mem_cons_of_mem _ hp)
      · rintro h p hp hw
        rcases List.mem_cons.1 hp with rfl | hp
        · exact absurd hw.symm e
        · exact h p hp hw
    rw [if_neg e]
    refine if_congr (by simp [e]) (if_congr e1 rfl rfl) rfl

end Net
end Verif

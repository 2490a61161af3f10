import Verif.Lemmas.Do
import Verif.Lemmas.Improve

/-!
# Paths that enter a node, and the network in which the node has no influence
-/

namespace Verif
open Relation Graph

/-- the graph without the edges that leave `x` -/
def Mute (g : Graph) (x : Node) : Graph := ⟨g.nodes, g.edges.filter (fun e => decide (e.1 ≠ x))⟩

theorem mute_edge {g : Graph} {x u v : Node} : (Mute g x).Edge u v ↔ g.Edge u v ∧ u ≠ x := by
  unfold Mute Graph.Edge
  simp

theorem mute_wf {g : Graph} (hw : g.WF) (x : Node) : (Mute g x).WF := by
  refine ⟨hw.nodesNodup, hw.edgesNodup.filter _, fun u v h => hw.edgeNodes u v (mute_edge.1 h).1, fun v h => hw.acyclic v ?_⟩
  exact TransGen.mono (fun a b h => (mute_edge.1 h).1) _ _ h

theorem mute_descEq {g : Graph} {x u v : Node} (h : (Mute g x).DescEq u v) : g.DescEq u v :=
  ReflTransGen.mono (fun a b h => (mute_edge.1 h).1) _ _ h

/-- a descent either avoids the edges out of `x` or passes through `x` -/
theorem mute_or {g : Graph} {x u v : Node} (h : g.DescEq u v) : (Mute g x).DescEq u v ∨ (Mute g x).DescEq u x := by
  induction h with
  | refl => exact Or.inl .refl
  | tail h1 h2 ih =>
    rename_i b c
    rcases ih with ih | ih
    · by_cases hb : b = x
      · exact Or.inr (hb ▸ ih)
      · exact Or.inl (ih.tail (mute_edge.2 ⟨h2, hb⟩))
    · exact Or.inr ih

/-- from `x` the ball climbs to every ancestor that has no observed descendants -/
theorem climb {g : Graph} {x b : Node} {Z : List Node} (h : g.DescEq b x) (hb : ¬ g.AnZ Z b) : Ball g Z (StartUp x) b .up := by
  induction h using ReflTransGen.head_induction_on with
  | refl => exact .init ⟨rfl, rfl⟩
  | head h1 h2 ih =>
    rename_i b c
    have hc : ¬ g.AnZ Z c := fun ⟨z, hz, hd⟩ => hb ⟨z, hz, .head h1 hd⟩
    exact .upPar (ih hc) (fun hz => hc ⟨c, hz, .refl⟩) h1

/-- active paths that enter `x` are followed by the ball in the graph without the edges out of `x` -/
theorem backdoor_ball {g : Graph} (hw : g.WF) {Z : List Node} {x : Node} (hx : x ∉ Z) :
    ∀ (n : Nat) (l : List Node) (b v : Node), l.length = n → (l ++ [b, v]).head? = some x → (l ++ [b, v]).Nodup →
      (∀ m r, l ++ [b, v] = x :: m :: r → g.Edge m x) →
      (l ++ [b, v]).IsChain g.Adj → g.Active Z (l ++ [b, v]) →
      (g.Edge b v → Ball (Mute g x) Z (StartUp x) v .down) ∧ (g.Edge v b → Ball (Mute g x) Z (StartUp x) v .up) := by
  intro n
  induction n with
  | zero =>
    intro l b v hl h1 hnd hin _ _
    have : l = [] := List.length_eq_zero_iff.1 hl
    subst this
    simp at h1; subst h1
    have hv := hin v [] rfl
    refine ⟨fun h => absurd h (fun h => no_two_cycle hw.acyclic h hv), fun h => Ball.upPar (Ball.init ⟨rfl, rfl⟩) hx (mute_edge.2 ⟨h, ?_⟩)⟩
    rintro rfl
    exact hw.acyclic _ (.single h)
  | succ n ih =>
    intro l b v hl h1 hnd hin h2 h3
    have hne : l ≠ [] := by rintro rfl; simp at hl
    obtain ⟨l', a, rfl⟩ := exists_snoc hne
    have e1 : l' ++ [a] ++ [b, v] = l' ++ a :: b :: [v] := by simp
    have hbx : b ≠ x ∧ v ≠ x := by
      rcases l' with _ | ⟨y, l'⟩
      · simp at h1 hnd
        obtain rfl := h1
        exact ⟨fun e => hnd.1.1 e.symm, fun e => hnd.1.2 e.symm⟩
      · simp at h1 hnd
        obtain rfl := h1
        exact ⟨fun e => hnd.1.2.2.1 e.symm, fun e => hnd.1.2.2.2 e.symm⟩
    rw [e1, active_split, active_three] at h3
    have hc := isChain_iff_split.1 h2
    have hab : g.Adj a b := hc l' a b [v] (by simp)
    have e2 : l' ++ [a] ++ [b, v] = (l' ++ [a, b]) ++ [v] := by simp
    have hprev := ih l' a b (by simpa using hl)
      (by cases l' with
          | nil => simpa using h1
          | cons x l' => simpa using h1)
      (by rw [e2] at hnd; exact (List.nodup_append.1 hnd).1)
      (fun m r e => hin m (r ++ [v]) (by rw [e2, e]; simp))
      (by
        rw [e2] at h2
        exact (List.isChain_append.1 h2).1) h3.1
    obtain ⟨hcol, hncol⟩ := h3.2.1
    constructor
    · intro hbv
      by_cases hh : g.Edge a b ∧ g.Edge v b
      · exact absurd hbv (fun h => no_two_cycle hw.acyclic h hh.2)
      · have hbz := hncol hh
        rcases hab with hab | hab
        · exact Ball.downCh (hprev.1 hab) hbz (mute_edge.2 ⟨hbv, hbx.1⟩)
        · exact Ball.upCh (hprev.2 hab) hbz (mute_edge.2 ⟨hbv, hbx.1⟩)
    · intro hvb
      by_cases hh : g.Edge a b
      · obtain ⟨z, hz, hd⟩ := hcol ⟨hh, hvb⟩
        by_cases hA : (Mute g x).AnZ Z b
        · exact Ball.downPar (hprev.1 hh) hA (mute_edge.2 ⟨hvb, hbx.2⟩)
        · rcases mute_or (x := x) hd with h | h
          · exact absurd ⟨z, hz, h⟩ hA
          · exact Ball.upPar (climb h hA) (fun hb => hA ⟨b, hb, .refl⟩) (mute_edge.2 ⟨hvb, hbx.2⟩)
      · have hbz := hncol (fun h => hh h.1)
        rcases hab with hab | hab
        · exact absurd hab hh
        · exact Ball.upPar (hprev.2 hab) hbz (mute_edge.2 ⟨hvb, hbx.2⟩)

/-- There is an active path that enters `x` exactly if `x` is d-connected in the graph without the edges out of `x`. -/
theorem backdoor_iff {g : Graph} (hw : g.WF) {Z : List Node} {x y : Node} (hx : x ∉ Z) (hy : y ∉ Z) (hxy : x ≠ y) :
    (∃ n r, g.IsUndirPath x y (x :: n :: r) ∧ g.Edge n x ∧ g.Active Z (x :: n :: r)) ↔ (Mute g x).DConn x y Z := by
  constructor
  · rintro ⟨n, r, ⟨h1, h2, h3, h4⟩, he, ha⟩
    rw [← ball_iff_dconn (mute_wf hw x)]
    refine ⟨hy, ?_⟩
    obtain ⟨q, e⟩ := getLast?_eq_some_snoc h2
    have hq : q ≠ [] := by rintro rfl; simp at e
    obtain ⟨l, b, rfl⟩ := exists_snoc hq
    have e1 : x :: n :: r = l ++ [b, y] := by rw [e]; simp
    rw [e1] at h1 h3 h4 ha
    have := backdoor_ball hw hx l.length l b y rfl h1 h4
      (fun m r' e' => by rw [← e1] at e'; simp at e'; exact e'.1 ▸ he) h3 ha
    rcases isChain_iff_split.1 h3 l b y [] rfl with h | h
    · exact ⟨.down, this.1 h⟩
    · exact ⟨.up, this.2 h⟩
  · rintro ⟨-, -, p, ⟨h1, h2, h3, h4⟩, ha⟩
    rcases p with _ | ⟨x', _ | ⟨n, r⟩⟩
    · simp at h1
    · simp at h1 h2; exact absurd (h1.symm.trans h2) hxy
    · simp at h1
      subst h1
      have hadj : ∀ u v, (Mute g x').Adj u v → g.Adj u v := fun u v h => h.imp (fun h => (mute_edge.1 h).1) (fun h => (mute_edge.1 h).1)
      refine ⟨n, r, ⟨rfl, h2, h3.imp hadj, h4⟩, ?_, ?_⟩
      · rcases isChain_iff_split.1 h3 [] x' n r rfl with h | h
        · exact absurd rfl (mute_edge.1 h).2
        · exact (mute_edge.1 h).1
      · intro l a b c r' e
        have k := ha l a b c r' e
        have c1 := isChain_iff_split.1 h3 l a b (c :: r') e
        have c2 := isChain_iff_split.1 h3 (l ++ [a]) b c r' (by rw [e]; simp)
        have f : ∀ u w, (Mute g x').Adj u w → g.Edge u w → (Mute g x').Edge u w := fun u w h hu => by
          rcases h with h | h
          · exact h
          · exact absurd hu (fun hu => no_two_cycle hw.acyclic hu (mute_edge.1 h).1)
        refine ⟨fun ⟨h, h'⟩ => ?_, fun h => k.2 (fun h' => h ⟨(mute_edge.1 h'.1).1, (mute_edge.1 h'.2).1⟩)⟩
        obtain ⟨z, hz, hd⟩ := k.1 ⟨f a b c1 h, f c b c2.symm h'⟩
        exact ⟨z, hz, mute_descEq hd⟩

namespace BN

/-- the network in which the children of `x` act as if `x` had the value `vx` -/
def mute (B : BN) (x : Node) (vx : Outcome) : BN :=
  ⟨Mute B.g x, B.dom, fun v a => if v = x then B.k x a else B.k v (Assign.upd a x vx)⟩

theorem mute_prob {B : BN} (hB : B.Prob) {x : Node} {vx : Outcome} (hv : vx ∈ B.dom x) (hx : x ∈ B.g.nodes) : (B.mute x vx).Prob := by
  have hself : ∀ v, ¬ B.g.Edge v v := fun v h => hB.wf.acyclic v (.single h)
  refine ⟨⟨mute_wf hB.wf x, hB.nodup, fun v hvn a b hab => ?_⟩, fun v hvn a ha => ?_, fun v hvn a ha => ?_⟩
  · show (if v = x then _ else _) = (if v = x then _ else _)
    split
    · rename_i e
      subst e
      exact hB.scope v hvn a b (fun u hu => hab u (hu.imp id (fun h => mute_edge.2 ⟨h, fun e => hself v (e ▸ h)⟩)))
    · refine hB.scope v hvn _ _ (fun u hu => ?_)
      by_cases hux : u = x
      · rw [hux, Assign.upd_same, Assign.upd_same]
      · rw [Assign.upd_ne _ _ hux, Assign.upd_ne _ _ hux]
        exact hab u (hu.imp id (fun h => mute_edge.2 ⟨h, hux⟩))
  · show ((B.dom v).map (fun y => if v = x then B.k x (Assign.upd a v y) else B.k v (Assign.upd (Assign.upd a v y) x vx))).sum = 1
    by_cases e : v = x
    · subst e
      simp only [if_true]
      exact hB.norm v hvn a (fun p hp => ha p (mute_edge.2 ⟨hp, fun e => hself v (e ▸ hp)⟩))
    · simp only [if_neg e]
      have e2 : ∀ y, Assign.upd (Assign.upd a v y) x vx = Assign.upd (Assign.upd a x vx) v y := fun y => Assign.upd_comm _ e _ _
      simp only [e2]
      refine hB.norm v hvn _ (fun p hp => ?_)
      by_cases hpx : p = x
      · rw [hpx, Assign.upd_same]; exact hv
      · rw [Assign.upd_ne _ _ hpx]; exact ha p (mute_edge.2 ⟨hp, hpx⟩)
  · show 0 ≤ (if v = x then B.k x a else B.k v (Assign.upd a x vx))
    split
    · rename_i e
      subst e
      exact hB.nonneg v hvn a (fun u hu => ha u (hu.imp id (fun h => mute_edge.2 ⟨h, fun e => hself v (e ▸ h)⟩)))
    · refine hB.nonneg v hvn _ (fun u hu => ?_)
      by_cases hux : u = x
      · rw [hux, Assign.upd_same]; exact hv
      · rw [Assign.upd_ne _ _ hux]
        exact ha u (hu.imp id (fun h => mute_edge.2 ⟨h, hux⟩))

/-- where `x` has the value the children believe it to have, nothing changes -/
theorem W_mute {B : BN} {x : Node} {vx : Outcome} (f : Assign → Rat) :
    (B.mute x vx).W (fun a => if a x = vx then f a else 0) = B.W (fun a => if a x = vx then f a else 0) := by
  unfold W
  show sumOver B.dom B.g.nodes _ _ = sumOver B.dom B.g.nodes _ _
  congr 1
  funext a
  by_cases e : a x = vx
  · congr 1
    unfold prod
    refine congrArg List.prod (List.map_congr_left (fun v _ => ?_))
    show (if v = x then B.k x a else B.k v (Assign.upd a x vx)) = B.k v a
    have : Assign.upd a x vx = a := by
      funext u
      by_cases hu : u = x
      · rw [hu, Assign.upd_same, e]
      · rw [Assign.upd_ne _ _ hu]
    split
    · rename_i e'; rw [e']
    · rw [this]
  · show _ * (if a x = vx then f a else 0) = _ * (if a x = vx then f a else 0)
    rw [if_neg e, mul_zero, mul_zero]

end BN

namespace Net

/-- for events that do not mention `x`, muting `x` is intervening on `x` -/
theorem W_mute_do {net : Net} (hG : net.Good) (hN : net.Normalised) {x : Node} {vx : Outcome} (hx : x ∈ net.g.nodes) (hv : vx ∈ net.dom x)
    {f : Assign → Rat} (hf : DependsOn f (fun v => v ∈ net.g.nodes ∧ v ≠ x)) :
    (net.bn.mute x vx).W f = (net.doBN [(x, vx)]).W f := by
  have hM := BN.mute_prob (bn_prob hG hN) hv hx
  have hk : ∀ B : BN, B.withRule x (B.k x) = B := fun B => by
    unfold BN.withRule
    cases B with
    | mk g dom k =>
      congr 1
      funext v
      by_cases e : v = x
      · rw [e]; simp
      · simp [e]
  have h1 := BN.W_nondesc hM (d := x) (σ := (net.bn.mute x vx).k x) (τ := fun a => if a x = vx then 1 else 0) (BN.isRule_k hM hx)
    (BN.isRule_ind hM hx hv) (h := f) (hf.mono (fun v hv' => ⟨hv'.1, fun hd => by
      rcases ReflTransGen.cases_head hd with e | ⟨c, hc, -⟩
      · exact hv'.2 e.symm
      · exact (mute_edge.1 hc).2 rfl⟩))
  rw [hk] at h1
  rw [h1]
  unfold BN.W
  show sumOver net.dom net.g.nodes _ _ = sumOver net.dom net.g.nodes _ _
  congr 1
  funext a
  congr 1
  unfold BN.prod
  by_cases e : a x = vx
  · refine congrArg List.prod (List.map_congr_left (fun v _ => ?_))
    show (if v = x then (fun a : Assign => if a x = vx then (1 : Rat) else 0) else fun a => if v = x then _ else net.kernel v (Assign.upd a x vx)) a =
      if v ∈ [x] then (if ∀ p ∈ [(x, vx)], p.1 = v → a v = p.2 then 1 else 0) else net.kernel v a
    by_cases e' : v = x
    · subst e'; simp [e]
    · simp only [if_neg e', List.mem_singleton]
      congr 1
      funext u
      by_cases hu : u = x
      · rw [hu, Assign.upd_same, e]
      · rw [Assign.upd_ne _ _ hu]
  · refine (List.prod_eq_zero (List.mem_map.2 ⟨x, hx, ?_⟩)).trans (List.prod_eq_zero (List.mem_map.2 ⟨x, hx, ?_⟩)).symm
    · show (if x = x then (fun a : Assign => if a x = vx then (1 : Rat) else 0) else _) a = 0
      simp [e]
    · show (if x ∈ [x] then (if ∀ p ∈ [(x, vx)], p.1 = x → a x = p.2 then 1 else 0) else net.kernel x a) = 0
      simp [e]

/-- Observing `x` and setting `x` have the same consequences for what is separated from `x` when `x` has no influence. -/
theorem observe_do {net : Net} (hG : net.Good) (hN : net.Normalised) {x : Node} {vx : Outcome} (hx : x ∈ net.g.nodes) (hv : vx ∈ net.dom x)
    {Z T : List Node} (hZ : Z ⊆ net.g.nodes) (hxZ : x ∉ Z) (hT : ∀ t ∈ T, t ∈ net.g.nodes ∧ t ≠ x ∧ ¬ Reached (Mute net.g x) Z [x] t)
    (z : Assign) {h : Assign → Rat} (hh : DependsOn h (fun v => v ∈ Z ∨ v ∈ T)) :
    net.bn.W (fun a => if a x = vx then BN.at_ Z z h a else 0) * (net.doBN [(x, vx)]).W (BN.at_ Z z (fun _ => 1)) =
      net.bn.W (fun a => if a x = vx then BN.at_ Z z (fun _ => 1) a else 0) * (net.doBN [(x, vx)]).W (BN.at_ Z z h) := by
  have hM := BN.mute_prob (bn_prob hG hN) hv hx
  have key := BN.ci hM (Z := Z) (S := [x]) (T := T) (fun v hv => hZ hv) (fun t ht => (hT t ht).2.2) z
    (f := fun a => if a x = vx then 1 else 0) (h := h)
    (fun a b hab => by simp only [hab x (Or.inr ⟨by simp, hx⟩)])
    (hh.mono (fun v hv => hv.imp id (fun ht => ⟨ht, (hT v ht).1⟩)))
  have hdep : ∀ {h : Assign → Rat}, DependsOn h (fun v => v ∈ Z ∨ v ∈ T) → DependsOn (BN.at_ Z z h) (fun v => v ∈ net.g.nodes ∧ v ≠ x) := by
    intro h hh a b hab
    have e1 : ∀ v ∈ Z, a v = b v := fun v hv => hab v ⟨hZ hv, fun e => hxZ (e ▸ hv)⟩
    have e2 : (∀ v ∈ Z, a v = z v) ↔ ∀ v ∈ Z, b v = z v := forall₂_congr (fun v hv => by rw [e1 v hv])
    have e3 : h a = h b := hh a b (fun v hv => hv.elim (e1 v) (fun ht => hab v ⟨(hT v ht).1, (hT v ht).2.1⟩))
    unfold BN.at_
    simp only [e2, e3]
  rw [W_mute_do hG hN hx hv (hdep hh), W_mute_do hG hN hx hv (hdep (dependsOn_const 1 _))] at key
  rw [← BN.W_mute (B := net.bn) (f := BN.at_ Z z h), ← BN.W_mute (B := net.bn) (f := BN.at_ Z z (fun _ => 1))]
  convert key using 3
  · funext a
    unfold BN.at_
    by_cases h1 : a x = vx <;> by_cases h2 : ∀ v ∈ Z, a v = z v <;> simp [h1, h2]
  · funext a
    unfold BN.at_
    by_cases h1 : a x = vx <;> by_cases h2 : ∀ v ∈ Z, a v = z v <;> simp [h1, h2]

/-- setting `x` changes nothing upstream -/
theorem W_do_nondesc {net : Net} (hG : net.Good) (hN : net.Normalised) {x : Node} {vx : Outcome} (hx : x ∈ net.g.nodes) (hv : vx ∈ net.dom x)
    {f : Assign → Rat} (hf : DependsOn f (fun v => v ∈ net.g.nodes ∧ ¬ net.g.DescEq x v)) :
    (net.doBN [(x, vx)]).W f = net.bn.W f := by
  have hB := bn_prob hG hN
  have h1 := BN.W_nondesc hB (d := x) (σ := net.bn.k x) (τ := fun a => if a x = vx then 1 else 0) (BN.isRule_k hB hx)
    (BN.isRule_ind hB hx hv) hf
  have hk : net.bn.withRule x (net.bn.k x) = net.bn := by
    unfold BN.withRule
    congr 1
    funext v
    by_cases e : v = x
    · rw [e]; simp; rfl
    · simp [e]; rfl
  rw [hk] at h1
  rw [h1]
  unfold BN.W
  show sumOver net.dom net.g.nodes _ _ = sumOver net.dom net.g.nodes _ _
  congr 1
  funext a
  congr 1
  unfold BN.prod
  refine congrArg List.prod (List.map_congr_left (fun v _ => ?_))
  show (if v ∈ [x] then (if ∀ p ∈ [(x, vx)], p.1 = v → a v = p.2 then 1 else 0) else net.kernel v a) =
    (if v = x then (fun a : Assign => if a x = vx then (1 : Rat) else 0) else net.kernel v) a
  by_cases e' : v = x
  · subst e'; simp
  · simp [e']

/-- setting `x` makes what is observed together with `x` at least as likely -/
theorem observe_le_do {net : Net} (hG : net.Good) (hN : net.Normalised) {x : Node} {vx : Outcome} (hx : x ∈ net.g.nodes) (hv : vx ∈ net.dom x)
    {f : Assign → Rat} (h0 : ∀ a, 0 ≤ f a) (hf : DependsOn f (fun v => v ∈ net.g.nodes ∧ v ≠ x)) :
    net.bn.W (fun a => if a x = vx then f a else 0) ≤ (net.doBN [(x, vx)]).W f := by
  have hM := BN.mute_prob (bn_prob hG hN) hv hx
  rw [← W_mute_do hG hN hx hv hf, ← BN.W_mute]
  refine BN.W_le hM (fun a _ => ?_)
  split
  · exact le_refl _
  · exact h0 a

end Net
end Verif

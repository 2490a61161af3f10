import Verif.Lemmas.Bayes

/-!
# d-separation and conditional independence
-/

namespace Verif
open Relation Graph

/-- unobserved nodes an active trail from one of `S` leads to -/
def Reached (g : Graph) (Z S : List Node) (v : Node) : Prop :=
  v ∉ Z ∧ ∃ d, Ball g Z (fun w d => w ∈ S ∧ d = .up) v d

theorem ball_union {g : Graph} {Z S : List Node} {v : Node} {d : Dir} :
    Ball g Z (fun w d => w ∈ S ∧ d = .up) v d ↔ ∃ s ∈ S, Ball g Z (StartUp s) v d := by
  constructor
  · intro h
    induction h with
    | init h => exact ⟨_, h.1, .init ⟨rfl, h.2⟩⟩
    | upPar _ h1 h2 ih => obtain ⟨s, hs, ih⟩ := ih; exact ⟨s, hs, .upPar ih h1 h2⟩
    | upCh _ h1 h2 ih => obtain ⟨s, hs, ih⟩ := ih; exact ⟨s, hs, .upCh ih h1 h2⟩
    | downCh _ h1 h2 ih => obtain ⟨s, hs, ih⟩ := ih; exact ⟨s, hs, .downCh ih h1 h2⟩
    | downPar _ h1 h2 ih => obtain ⟨s, hs, ih⟩ := ih; exact ⟨s, hs, .downPar ih h1 h2⟩
  · rintro ⟨s, hs, h⟩
    induction h with
    | init h => exact .init ⟨h.1 ▸ hs, h.2⟩
    | upPar _ h1 h2 ih => exact .upPar ih h1 h2
    | upCh _ h1 h2 ih => exact .upCh ih h1 h2
    | downCh _ h1 h2 ih => exact .downCh ih h1 h2
    | downPar _ h1 h2 ih => exact .downPar ih h1 h2

/-- what `is_dconnected` decides -/
theorem isDConnected_reached {g : Graph} (hw : g.WF) (pick : Pick) {s t : Node} {Z : List Node}
    (hs : s ∈ g.nodes) (hz : Z ⊆ g.nodes) :
    ∃ b, isDConnected pick g s t Z = .ok b ∧ (b = true ↔ Reached g Z [s] t) := by
  obtain ⟨act, h1, h2⟩ := activeTrailNodes_ok hw pick hs hz
  unfold isDConnected
  rw [h1]
  refine ⟨_, rfl, ?_⟩
  rw [decide_eq_true_eq, h2]
  unfold Reached
  refine and_congr_right (fun _ => exists_congr (fun d => ?_))
  rw [ball_union]
  simp

theorem reached_iff {g : Graph} {Z S : List Node} {t : Node} :
    Reached g Z S t ↔ ∃ s ∈ S, Reached g Z [s] t := by
  unfold Reached
  constructor
  · rintro ⟨h1, d, h⟩
    obtain ⟨s, hs, h⟩ := ball_union.1 h
    exact ⟨s, hs, h1, d, ball_union.2 ⟨s, by simp, h⟩⟩
  · rintro ⟨s, hs, h1, d, h⟩
    obtain ⟨s', hs', h⟩ := ball_union.1 h
    rw [List.mem_singleton.1 hs'] at h
    exact ⟨h1, d, ball_union.2 ⟨s, hs, h⟩⟩

theorem not_reached_of_ok {g : Graph} (hw : g.WF) {pick : Pick} {s t : Node} {Z : List Node}
    (hs : s ∈ g.nodes) (hz : Z ⊆ g.nodes) (h : isDConnected pick g s t Z = .ok false) : ¬ Reached g Z [s] t := by
  obtain ⟨b, h1, h2⟩ := isDConnected_reached hw pick (t := t) hs hz
  rw [h] at h1
  cases h1
  intro h3
  exact absurd (h2.2 h3) (by simp)

/-- a node reached from above that is an ancestor of what we look at can pass on to its parents -/
theorem pass {g : Graph} {Z S T : List Node} (hT : ∀ t ∈ T, ¬ Reached g Z S t) {v : Node}
    (hv : ∃ t ∈ S ++ T ++ Z, g.DescEq v t)
    (hb : Ball g Z (fun w d => w ∈ S ∧ d = .up) v .down) :
    g.AnZ Z v ∨ (v ∉ Z ∧ Ball g Z (fun w d => w ∈ S ∧ d = .up) v .up) := by
  obtain ⟨t, ht, hd⟩ := hv
  induction hd using ReflTransGen.head_induction_on with
  | refl =>
    simp only [List.mem_append] at ht
    by_cases hz : t ∈ Z
    · exact Or.inl ⟨t, hz, ReflTransGen.refl⟩
    · rcases ht with (h | h) | h
      · exact Or.inr ⟨hz, .init ⟨h, rfl⟩⟩
      · exact absurd ⟨hz, _, hb⟩ (hT t h)
      · exact absurd h hz
  | @head a c hac hct ih =>
    by_cases hz : a ∈ Z
    · exact Or.inl ⟨a, hz, ReflTransGen.refl⟩
    · rcases ih (.downCh hb hz hac) with ⟨z, h1, h2⟩ | ⟨h1, h2⟩
      · exact Or.inl ⟨z, h1, ReflTransGen.head hac h2⟩
      · exact Or.inr ⟨hz, .upPar h2 h1 hac⟩

/-- No family has unobserved members on both sides. -/
theorem families {g : Graph} {Z S T : List Node} (hT : ∀ t ∈ T, ¬ Reached g Z S t) {v : Node}
    (hv : ∃ t ∈ S ++ T ++ Z, g.DescEq v t) {u w : Node} (hu : u = v ∨ g.Edge u v) (hw : w = v ∨ g.Edge w v)
    (hzw : w ∉ Z) (hR : Reached g Z S u) : Reached g Z S w := by
  refine ⟨hzw, ?_⟩
  obtain ⟨hzu, d, hb⟩ := hR
  have hpar : (∃ d, Ball g Z (fun w d => w ∈ S ∧ d = .up) v d) → (v ∉ Z ∨ Ball g Z (fun w d => w ∈ S ∧ d = .up) v .down) →
      ∃ d, Ball g Z (fun w d => w ∈ S ∧ d = .up) w d := by
    rintro ⟨d, hd⟩ hor
    rcases hw with rfl | hw
    · exact ⟨d, hd⟩
    · have hdown : Ball g Z (fun w d => w ∈ S ∧ d = .up) v .down → ∃ d, Ball g Z (fun w d => w ∈ S ∧ d = .up) w d := by
        intro hd
        rcases pass hT hv hd with h | ⟨h1, h2⟩
        · exact ⟨_, .downPar hd h hw⟩
        · exact ⟨_, .upPar h2 h1 hw⟩
      rcases hor with hz | hd'
      · cases d with
        | up => exact ⟨_, .upPar hd hz hw⟩
        | down => exact hdown hd
      · exact hdown hd'
  rcases hu with rfl | hu
  · exact hpar ⟨d, hb⟩ (Or.inl hzu)
  · have hd : Ball g Z (fun w d => w ∈ S ∧ d = .up) v .down := by
      cases d with
      | up => exact .upCh hb hzu hu
      | down => exact .downCh hb hzu hu
    exact hpar ⟨_, hd⟩ (Or.inr hd)

namespace BN

/-- indicator of "the variables in `Z` are as in `z`" times a function -/
def at_ (Z : List Node) (z : Assign) (f : Assign → Rat) (a : Assign) : Rat :=
  if ∀ v ∈ Z, a v = z v then f a else 0

theorem W_at_zero {B : BN} {Z : List Node} {z : Assign} (hZ : ∀ v ∈ Z, v ∈ B.g.nodes)
    (h : ¬ ∀ v ∈ Z, z v ∈ B.dom v) (f : Assign → Rat) : B.W (at_ Z z f) = 0 := by
  have : B.W (at_ Z z f) = B.W (fun _ => 0) := by
    apply W_congr
    intro a ha
    unfold at_
    rw [if_neg]
    intro h'
    apply h
    intro v hv
    rw [← h' v hv]
    exact ha v (hZ v hv)
  rw [this]
  have := B.W_mul_const 0 (fun _ => 0)
  simpa using this

open Classical in
/-- ancestors of everything mentioned -/
noncomputable def anc (g G : Graph) (W : List Node) : List Node :=
  g.nodes.filter (fun v => decide (∃ t ∈ W, G.DescEq v t))

open Classical in
/-- summed variables on the reached side -/
noncomputable def us (g G : Graph) (Z S T : List Node) : List Node :=
  (anc g G (S ++ T ++ Z)).filter (fun v => decide (¬ v ∈ Z ∧ Reached G Z S v))

open Classical in
/-- summed variables on the other side -/
noncomputable def vs (g G : Graph) (Z S T : List Node) : List Node :=
  (anc g G (S ++ T ++ Z)).filter (fun v => decide (¬ v ∈ Z ∧ ¬ Reached G Z S v))

open Classical in
/-- nodes whose mechanism is on the reached side -/
noncomputable def ph (g G : Graph) (Z S T : List Node) : List Node :=
  (anc g G (S ++ T ++ Z)).filter (fun v => decide (∀ u ∈ v :: g.parents v, ¬ u ∈ Z → Reached G Z S u))

open Classical in
/-- nodes whose mechanism is on the other side -/
noncomputable def ps (g G : Graph) (Z S T : List Node) : List Node :=
  (anc g G (S ++ T ++ Z)).filter (fun v => decide (¬ ∀ u ∈ v :: g.parents v, ¬ u ∈ Z → Reached G Z S u))

theorem mem_anc {g G : Graph} {W : List Node} {v : Node} :
    v ∈ anc g G W ↔ v ∈ g.nodes ∧ ∃ t ∈ W, G.DescEq v t := by
  classical
  simp [anc]

/-- The weight of "Z as in z" times `f · h` splits into a part that only involves mechanisms on the
reached side and one that only involves the other ones.  `G` may have more edges than the network. -/
theorem W_split {B : BN} (hB : B.Prob) {G : Graph} (hG : ∀ u v, B.g.Edge u v → G.Edge u v)
    {Z S T : List Node} (hZ : ∀ v ∈ Z, v ∈ B.g.nodes) (hsep : ∀ t ∈ T, ¬ Reached G Z S t) {z : Assign}
    (hz : ∀ v ∈ Z, z v ∈ B.dom v) {f h : Assign → Rat}
    (hf : DependsOn f (fun v => v ∈ Z ∨ (v ∈ S ∧ v ∈ B.g.nodes)))
    (hh : DependsOn h (fun v => v ∈ Z ∨ (v ∈ T ∧ v ∈ B.g.nodes))) :
    B.W (at_ Z z (fun a => f a * h a)) =
      sumOver B.dom (us B.g G Z S T) (fun a => B.prod (ph B.g G Z S T) a * f a) z *
      sumOver B.dom (vs B.g G Z S T) (fun a => B.prod (ps B.g G Z S T) a * h a) z := by
  classical
  have hA : ∀ v, v ∈ anc B.g G (S ++ T ++ Z) ↔ v ∈ B.g.nodes ∧ ∃ t ∈ S ++ T ++ Z, G.DescEq v t := fun v => mem_anc
  have key := split hB (A := anc B.g G (S ++ T ++ Z)) (hB.wf.nodesNodup.filter _) (fun v hv => ((hA v).1 hv).1)
    (fun u v huv hv => (hA u).2 ⟨(hB.wf.edgeNodes u v huv).1, by
      obtain ⟨t, ht, hd⟩ := ((hA v).1 hv).2
      exact ⟨t, ht, ReflTransGen.head (hG u v huv) hd⟩⟩)
    (Z := fun v => v ∈ Z) (R := fun v => Reached G Z S v)
    (fun v hv => by
      by_cases hex : ∃ u, (u = v ∨ B.g.Edge u v) ∧ u ∉ Z ∧ Reached G Z S u
      · left
        obtain ⟨u, hu, hzu, hR⟩ := hex
        intro w hw hzw
        exact families hsep ((hA v).1 hv).2 (hu.imp id (hG u v)) (hw.imp id (hG w v)) hzw hR
      · right
        intro u hu hzu hR
        exact hex ⟨u, hu, hzu, hR⟩)
    (z := z) (fun v _ hv => hz v hv) (f := f) (h := h)
    (hf.mono (fun v hv => by
      rcases hv with hv | hv
      · exact ⟨(hA v).2 ⟨hZ v hv, v, by simp [hv], ReflTransGen.refl⟩, Or.inl hv⟩
      · refine ⟨(hA v).2 ⟨hv.2, v, by simp [hv.1], ReflTransGen.refl⟩, ?_⟩
        by_cases hzv : v ∈ Z
        · exact Or.inl hzv
        · exact Or.inr ⟨hzv, _, .init ⟨hv.1, rfl⟩⟩))
    (hh.mono (fun v hv => by
      rcases hv with hv | hv
      · exact ⟨(hA v).2 ⟨hZ v hv, v, by simp [hv], ReflTransGen.refl⟩, Or.inl hv⟩
      · exact ⟨(hA v).2 ⟨hv.2, v, by simp [hv.1], ReflTransGen.refl⟩, Or.inr (hsep v hv.1)⟩))
  have e : B.W (at_ Z z (fun a => f a * h a)) =
      B.W (fun a => if ∀ v ∈ anc B.g G (S ++ T ++ Z), v ∈ Z → a v = z v then f a * h a else 0) := by
    congr 1
    funext a
    unfold at_
    have : (∀ v ∈ Z, a v = z v) ↔ (∀ v ∈ anc B.g G (S ++ T ++ Z), v ∈ Z → a v = z v) :=
      ⟨fun h v _ hv => h v hv, fun h v hv => h v ((hA v).2 ⟨hZ v hv, v, by simp [hv], ReflTransGen.refl⟩) hv⟩
    by_cases hc : ∀ v ∈ Z, a v = z v
    · rw [if_pos hc, if_pos (this.1 hc)]
    · rw [if_neg hc, if_neg (fun h => hc (this.2 h))]
  rw [e, key]
  simp only [us, vs, ph, ps]

/-- **d-separation implies conditional independence.** -/
theorem ci {B : BN} (hB : B.Prob) {Z S T : List Node} (hZ : ∀ v ∈ Z, v ∈ B.g.nodes)
    (hsep : ∀ t ∈ T, ¬ Reached B.g Z S t) (z : Assign) {f h : Assign → Rat}
    (hf : DependsOn f (fun v => v ∈ Z ∨ (v ∈ S ∧ v ∈ B.g.nodes)))
    (hh : DependsOn h (fun v => v ∈ Z ∨ (v ∈ T ∧ v ∈ B.g.nodes))) :
    B.W (at_ Z z (fun a => f a * h a)) * B.W (at_ Z z (fun _ => 1)) =
      B.W (at_ Z z f) * B.W (at_ Z z h) := by
  by_cases hz : ∀ v ∈ Z, z v ∈ B.dom v
  · have h1 : ∀ S, DependsOn (fun _ : Assign => (1 : Rat)) S := fun S => dependsOn_const 1 S
    have e1 := W_split hB (G := B.g) (fun _ _ h => h) hZ hsep hz hf hh
    have e2 := W_split hB (G := B.g) (fun _ _ h => h) hZ hsep hz hf (h1 _)
    have e3 := W_split hB (G := B.g) (fun _ _ h => h) hZ hsep hz (h1 _) hh
    have e4 := W_split hB (G := B.g) (fun _ _ h => h) hZ hsep hz (h1 _) (h1 _)
    simp only [mul_one, one_mul] at e2 e3 e4
    rw [e1, e2, e3, e4]
    ring
  · rw [W_at_zero hZ hz, W_at_zero hZ hz f]
    ring

/-- **Irrelevant mechanisms.** Two networks that differ only in mechanisms whose sources in `G` are
not reached from the query give the same conditional weights. -/
theorem irrelevant {B B' : BN} (hB : B.Prob) (hB' : B'.Prob) (hg : B'.g = B.g) (hd : ∀ v ∈ B.g.nodes, B'.dom v = B.dom v)
    {Ds : Node → Prop} (hk : ∀ v ∈ B.g.nodes, ¬ Ds v → ∀ a : Assign,
      (∀ u, u = v ∨ B.g.Edge u v → a u ∈ B.dom u) → B'.k v a = B.k v a)
    {G : Graph} (hG : ∀ u v, B.g.Edge u v → G.Edge u v) {Z S T : List Node} (hZ : ∀ v ∈ Z, v ∈ B.g.nodes)
    (hDs : ∀ v ∈ B.g.nodes, Ds v → ∃ s ∈ S, s ∉ Z ∧ G.Edge s v)
    (hsep : ∀ t ∈ T, ¬ Reached G Z S t) (z : Assign) {h : Assign → Rat}
    (hh : DependsOn h (fun v => v ∈ Z ∨ (v ∈ T ∧ v ∈ B.g.nodes))) :
    B.W (at_ Z z h) * B'.W (at_ Z z (fun _ => 1)) = B'.W (at_ Z z h) * B.W (at_ Z z (fun _ => 1)) := by
  classical
  by_cases hz : ∀ v ∈ Z, z v ∈ B.dom v
  · have h1 : ∀ S, DependsOn (fun _ : Assign => (1 : Rat)) S := fun S => dependsOn_const 1 S
    have hz' : ∀ v ∈ Z, z v ∈ B'.dom v := fun v hv => by rw [hd v (hZ v hv)]; exact hz v hv
    have hG' : ∀ u v, B'.g.Edge u v → G.Edge u v := by rw [hg]; exact hG
    have hZ' : ∀ v ∈ Z, v ∈ B'.g.nodes := by rw [hg]; exact hZ
    have e1 := W_split hB hG hZ hsep hz (h1 _) hh
    have e2 := W_split hB hG hZ hsep hz (h1 _) (h1 _)
    have e3 := W_split hB' hG' hZ' hsep hz' (h1 _) (by rw [hg]; exact hh)
    have e4 := W_split hB' hG' hZ' hsep hz' (h1 _) (h1 _)
    simp only [mul_one, one_mul] at e1 e2 e3 e4
    -- the other side is the same in both networks
    have key : ∀ f : Assign → Rat, sumOver B'.dom (vs B'.g G Z S T) (fun a => B'.prod (ps B'.g G Z S T) a * f a) z =
        sumOver B.dom (vs B.g G Z S T) (fun a => B.prod (ps B.g G Z S T) a * f a) z := by
      intro f
      have hA : ∀ v, v ∈ anc B.g G (S ++ T ++ Z) ↔ v ∈ B.g.nodes ∧ ∃ t ∈ S ++ T ++ Z, G.DescEq v t := fun v => mem_anc
      rw [hg]
      have hvn : ∀ v ∈ vs B.g G Z S T, v ∈ B.g.nodes := by
        intro v hv
        simp only [vs, List.mem_filter] at hv
        exact ((hA v).1 hv.1).1
      rw [sumOver_dom_perm (dom := B'.dom) (dom' := B.dom) (fun v hv => by rw [hd v (hvn v hv)])]
      apply sumOver_congr
      intro b hb1 hb2
      congr 1
      unfold prod
      congr 1
      apply List.map_congr_left
      intro v hv
      simp only [ps, List.mem_filter, decide_eq_true_eq] at hv
      obtain ⟨hvA, hv2⟩ := hv
      have hvA' := (hA v).1 hvA
      have hnone : ∀ u, (u = v ∨ G.Edge u v) → ¬ Reached G Z S u := by
        intro u hu hR
        apply hv2
        intro w hw hzw
        refine families hsep hvA'.2 hu ?_ hzw hR
        simp only [List.mem_cons, mem_parents] at hw
        exact hw.imp id (hG w v)
      refine hk v hvA'.1 (fun hDv => ?_) b (fun u hu => ?_)
      · obtain ⟨s, hs, hsz, hsv⟩ := hDs v hvA'.1 hDv
        exact hnone s (Or.inr hsv) ⟨hsz, _, .init ⟨hs, rfl⟩⟩
      · have huA : u ∈ anc B.g G (S ++ T ++ Z) := by
          rcases hu with rfl | hu
          · exact hvA
          · obtain ⟨t, ht, hd'⟩ := hvA'.2
            exact (hA u).2 ⟨(hB.wf.edgeNodes u v hu).1, t, ht, ReflTransGen.head (hG u v hu) hd'⟩
        by_cases huZ : u ∈ Z
        · rw [hb2 u (by simp [vs, huZ])]
          exact hz u huZ
        · refine hb1 u ?_
          simp only [vs, List.mem_filter, decide_eq_true_eq]
          exact ⟨huA, huZ, hnone u (hu.imp id (hG u v))⟩
    rw [e1, e2, e3, e4, key, ← (by simpa using key (fun _ => 1) :
      sumOver B'.dom (vs B'.g G Z S T) (fun a => B'.prod (ps B'.g G Z S T) a) z =
        sumOver B.dom (vs B.g G Z S T) (fun a => B.prod (ps B.g G Z S T) a) z)]
    ring
  · have hz' : ¬ ∀ v ∈ Z, z v ∈ B'.dom v := fun h' => hz (fun v hv => by rw [← hd v (hZ v hv)]; exact h' v hv)
    rw [W_at_zero hZ hz, W_at_zero (by rw [hg]; exact hZ) hz' h]
    ring

end BN
end Verif

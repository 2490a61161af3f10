import Verif.Lemmas.Backward
import Verif.Lemmas.Incentive
import Verif.Lemmas.Enumerate

/-!
# Observations that are not requisite can be ignored
-/

namespace Verif

open Graph Relation Macid

theorem dconn_reached {g : Graph} (hw : g.WF) {s t : Node} {Z : List Node} (hs : s ∈ g.nodes) (hz : Z ⊆ g.nodes) :
    g.DConn s t Z ↔ Reached g Z [s] t := by
  obtain ⟨b, h1, h2⟩ := isDConnected_spec hw (fun _ => 0) (t := t) hs hz
  obtain ⟨b', h3, h4⟩ := isDConnected_reached hw (fun _ => 0) (t := t) hs hz
  rw [h1] at h3
  cases h3
  exact h2.symm.trans h4

/-- If every single observation in `N` is separated from `u` given the rest of the family of `d`, then all of them together are
separated from `u` given the family without `N`. -/
theorem sep_all {g : Graph} (hw : g.WF) {d u : Node} {N Z0 : List Node} (hN : ∀ x ∈ N, g.Edge x d)
    (hZ0 : ∀ z, z ∈ Z0 ↔ z = d ∨ (g.Edge z d ∧ z ∉ N)) {Z : Node → List Node}
    (hZ : ∀ x ∈ N, ∀ z, z ∈ Z x ↔ z ≠ x ∧ (z = d ∨ g.Edge z d)) (hu : g.Desc d u)
    (hsep : ∀ x ∈ N, ¬ Reached g (Z x) [x] u) : ¬ Reached g Z0 N u := by
  have hself : ∀ x ∈ N, x ∉ Z x := fun x hx h => ((hZ x hx x).1 h).1 rfl
  have hout : ∀ v, v ∉ Z0 → v ∉ N → ∀ x ∈ N, v ∉ Z x := by
    intro v h1 h2 x hx h
    obtain ⟨_, rfl | h⟩ := (hZ x hx v).1 h
    · exact h1 ((hZ0 v).2 (Or.inl rfl))
    · exact h1 ((hZ0 v).2 (Or.inr ⟨h, h2⟩))
  have hin : ∀ z ∈ Z0, ∀ x ∈ N, z ∈ Z x := by
    intro z hz x hx
    rw [hZ x hx]
    rcases (hZ0 z).1 hz with rfl | ⟨h1, h2⟩
    · exact ⟨fun e => hw.acyclic z (.single (by have := hN x hx; rwa [← e] at this)), Or.inl rfl⟩
    · exact ⟨fun e => h2 (e ▸ hx), Or.inr h1⟩
  have key : ∀ v dir, Ball g Z0 (fun w d => w ∈ N ∧ d = .up) v dir → v ∈ N ∨ ∃ x ∈ N, Ball g (Z x) (StartUp x) v dir := by
    intro v dir h
    induction h with
    | init h => exact Or.inl h.1
    | @upPar v p _ h1 h2 ih =>
      right
      by_cases hv : v ∈ N
      · exact ⟨v, hv, .upPar (.init ⟨rfl, rfl⟩) (hself v hv) h2⟩
      · obtain ⟨x, hx, hb⟩ := ih.resolve_left hv
        exact ⟨x, hx, .upPar hb (hout v h1 hv x hx) h2⟩
    | @upCh v c _ h1 h2 ih =>
      right
      by_cases hv : v ∈ N
      · exact ⟨v, hv, .upCh (.init ⟨rfl, rfl⟩) (hself v hv) h2⟩
      · obtain ⟨x, hx, hb⟩ := ih.resolve_left hv
        exact ⟨x, hx, .upCh hb (hout v h1 hv x hx) h2⟩
    | @downCh v c _ h1 h2 ih =>
      right
      by_cases hv : v ∈ N
      · exact ⟨v, hv, .upCh (.init ⟨rfl, rfl⟩) (hself v hv) h2⟩
      · obtain ⟨x, hx, hb⟩ := ih.resolve_left hv
        exact ⟨x, hx, .downCh hb (hout v h1 hv x hx) h2⟩
    | @downPar v p _ h1 h2 ih =>
      right
      by_cases hv : v ∈ N
      · exact ⟨v, hv, .upPar (.init ⟨rfl, rfl⟩) (hself v hv) h2⟩
      · obtain ⟨x, hx, hb⟩ := ih.resolve_left hv
        obtain ⟨z, hz, hz'⟩ := h1
        exact ⟨x, hx, .downPar hb ⟨z, hin z hz x hx, hz'⟩ h2⟩
  rintro ⟨h1, dir, hb⟩
  have huN : u ∉ N := fun h => hw.acyclic d (hu.tail (hN u h))
  obtain ⟨x, hx, hb⟩ := (key u dir hb).resolve_left huN
  exact hsep x hx ⟨hout u h1 huN x hx, dir, ball_union.2 ⟨x, by simp, hb⟩⟩

namespace BN

/-- the outcomes of a node are not empty -/
theorem dom_ne {B : BN} (hB : B.Prob) {d : Node} (hd : d ∈ B.g.nodes) {z : Assign} (hz : ∀ p, B.g.Edge p d → z p ∈ B.dom p) :
    B.dom d ≠ [] := by
  intro h
  have := hB.norm d hd z hz
  rw [h] at this
  simp at this

/-- If the observations `N` of `d` are separated from what `h` looks at, given `d` and the other observations `R`, then the best
action can be chosen by looking at `R` only. -/
theorem best_ignoring {B : BN} (hB : B.Prob) {d : Node} (hd : d ∈ B.g.nodes) {Z R N T : List Node} (hZ : ∀ v, v ∈ Z ↔ B.g.Edge v d)
    (hR : ∀ v, v ∈ R ↔ v ∈ Z ∧ v ∉ N) (hN : ∀ v ∈ N, v ∈ Z) (hsep : ∀ t ∈ T, ¬ Reached B.g (d :: R) N t) {h : Assign → Rat}
    (hh : DependsOn h (fun v => v ∈ T ∧ v ∈ B.g.nodes)) :
    ∃ φ : Assign → Outcome, DependsOn φ (· ∈ R) ∧ (B.dom d ≠ [] → ∀ z : Assign, φ z ∈ B.dom d) ∧
      ∀ z : Assign, (∀ v ∈ Z, z v ∈ B.dom v) → ∀ x ∈ B.dom d, B.act d Z z x h ≤ B.act d Z z (φ z) h := by
  classical
  have hdZ := not_mem_parents hB hZ
  have hdR : d ∉ R := fun q => hdZ ((hR d).1 q).1
  -- weights given the values of R only
  let aR : Assign → Outcome → (Assign → Rat) → Rat := fun z x f =>
    (B.withRule d (fun a => if a d = x then 1 else 0)).W (at_ (d :: R) (Assign.upd z d x) f)
  let cut : Assign → Assign := fun z v => if v ∈ R then z v else 0
  have hcut : ∀ z x f, aR (cut z) x f = aR z x f := by
    intro z x f
    simp only [aR]
    congr 1
    funext a
    rw [at_cons hdR, at_cons hdR]
    unfold at_
    have : (∀ v ∈ R, a v = cut z v) ↔ ∀ v ∈ R, a v = z v := forall₂_congr (fun v hv => by simp [cut, hv])
    simp only [this]
  have hφ : ∀ z : Assign, ∃ x, B.dom d ≠ [] → x ∈ B.dom d ∧ ∀ y ∈ B.dom d, aR (cut z) y h ≤ aR (cut z) x h := by
    intro z
    by_cases hne : B.dom d = []
    · exact ⟨0, fun q => absurd hne q⟩
    · obtain ⟨x, hx, hx'⟩ := Net.exists_max hne (fun y => aR (cut z) y h)
      exact ⟨x, fun _ => ⟨hx, hx'⟩⟩
  choose ψ hψ using hφ
  -- depends on the cut only
  let φ : Assign → Outcome := fun z => ψ (cut z)
  have hcc : ∀ z, cut (cut z) = cut z := by
    intro z
    funext v
    simp only [cut]
    split <;> rfl
  have hzd : ∀ z : Assign, (∀ v ∈ Z, z v ∈ B.dom v) → B.dom d ≠ [] := fun z hz => dom_ne hB hd (fun p hp => hz p ((hZ p).2 hp))
  refine ⟨φ, fun a b hab => ?_, fun hne z => (hψ (cut z) hne).1, fun z hz x hx => ?_⟩
  · have : cut a = cut b := by
      funext v
      simp only [cut]
      split
      · rename_i hv; exact hab v hv
      · rfl
    simp only [φ, this]
  · have hne := hzd z hz
    have hmax : ∀ y ∈ B.dom d, aR z y h ≤ aR z (φ z) h := by
      intro y hy
      have := (hψ (cut z) hne).2 y hy
      rw [hcc, hcut, hcut] at this
      exact this
    have hφd : φ z ∈ B.dom d := (hψ (cut z) hne).1
    have hdn : ∀ v ∈ d :: R, v ∈ B.g.nodes := by
      intro v hv
      rcases List.mem_cons.1 hv with rfl | hv
      · exact hd
      · exact (hB.wf.edgeNodes v d ((hZ v).1 ((hR v).1 hv).1)).1
    -- conditional independence
    have hci : ∀ y ∈ B.dom d, B.act d Z z y h * aR z y (fun _ => 1) = B.act d Z z y (fun _ => 1) * aR z y h := by
      intro y hy
      have hrule := isRule_ind hB hd hy
      have hsplit : ∀ f : Assign → Rat, (B.withRule d (fun a => if a d = y then 1 else 0)).W
          (at_ (d :: R) (Assign.upd z d y) (fun a => (if ∀ v ∈ N, a v = z v then (1 : Rat) else 0) * f a)) = B.act d Z z y f := by
        intro f
        have e := W_fam hB hd hZ hrule.scope z y f
        simp only [Assign.upd_same, if_true, one_mul] at e
        rw [← e]
        congr 1
        funext a
        rw [at_cons hdR, at_cons hdZ]
        unfold at_
        have : (∀ v ∈ Z, a v = z v) ↔ (∀ v ∈ R, a v = z v) ∧ ∀ v ∈ N, a v = z v := by
          constructor
          · intro q
            exact ⟨fun v hv => q v ((hR v).1 hv).1, fun v hv => q v (hN v hv)⟩
          · rintro ⟨q1, q2⟩ v hv
            by_cases hvN : v ∈ N
            · exact q2 v hvN
            · exact q1 v ((hR v).2 ⟨hv, hvN⟩)
        simp only [this]
        split_ifs <;> first | rfl | (exfalso; tauto) | simp
      have key := ci (withRule_prob hB hrule) (Z := d :: R) (S := N) (T := T) hdn hsep (Assign.upd z d y)
        (f := fun a => if ∀ v ∈ N, a v = z v then 1 else 0) (h := h)
        (fun a b hab => by
          have : (∀ v ∈ N, a v = z v) ↔ ∀ v ∈ N, b v = z v := forall₂_congr (fun v hv => by
            rw [hab v (Or.inr ⟨hv, (hB.wf.edgeNodes v d ((hZ v).1 (hN v hv))).1⟩)])
          simp only [this]) (hh.mono (fun v hv => Or.inr hv))
      rw [hsplit] at key
      have h2 := hsplit (fun _ => 1)
      simp only [mul_one] at h2
      rw [h2] at key
      exact key
    -- the probability of R does not depend on the action
    have hRone : ∀ y ∈ B.dom d, aR z y (fun _ => 1) = aR z (φ z) (fun _ => 1) := by
      have e : ∀ y ∈ B.dom d, aR z y (fun _ => 1) = (B.withRule d (fun a => if a d = y then 1 else 0)).W (at_ R z (fun _ => 1)) := by
        intro y hy
        simp only [aR]
        rw [W_withRule hB.wf.nodesNodup hd]
        conv_rhs => rw [W_withRule hB.wf.nodesNodup hd]
        apply W_congr
        intro a _
        rw [at_cons hdR]
        by_cases q : a d = y <;> simp [q]
      intro y hy
      rw [e y hy, e _ hφd]
      apply W_nondesc hB (isRule_ind hB hd hy) (isRule_ind hB hd hφd)
      intro a b hab
      have : ∀ v ∈ R, a v = b v := fun v hv => by
        have hv' := (hZ v).1 ((hR v).1 hv).1
        exact hab v ⟨(hB.wf.edgeNodes v d hv').1, fun h => hB.wf.acyclic d (TransGen.tail'_iff.2 ⟨v, h, hv'⟩)⟩
      unfold at_
      have e : (∀ v ∈ R, a v = z v) ↔ ∀ v ∈ R, b v = z v := forall₂_congr (fun v hv => by rw [this v hv])
      simp only [e]
    have hAone := act_one hB hd hZ hx hφd z
    have hAnn := act_nonneg hB hd hZ hφd z (h := fun _ => 1) (fun _ => by norm_num)
    have hRnn : 0 ≤ aR z (φ z) (fun _ => 1) := by
      simp only [aR]
      apply W_nonneg (withRule_prob hB (isRule_ind hB hd hφd))
      intro a _
      unfold at_
      split <;> norm_num
    rcases hRnn.lt_or_eq with hpos | hzero
    · have e1 := hci x hx
      have e2 := hci (φ z) hφd
      rw [hRone x hx, hAone] at e1
      have : B.act d Z z x h * aR z (φ z) (fun _ => 1) ≤ B.act d Z z (φ z) h * aR z (φ z) (fun _ => 1) := by
        rw [e1, e2]
        exact mul_le_mul_of_nonneg_left (hmax x hx) hAnn
      exact le_of_mul_le_mul_right this hpos
    · -- an impossible context
      have hzer : ∀ y ∈ B.dom d, B.act d Z z y h = 0 := by
        intro y hy
        have hrule := isRule_ind hB hd hy
        have e := W_fam hB hd hZ hrule.scope z y h
        simp only [Assign.upd_same, if_true, one_mul] at e
        rw [← e]
        refine W_zero (withRule_prob hB hrule) (f := at_ (d :: R) (Assign.upd z d y) (fun _ => 1)) (fun a _ => by
          unfold at_; split <;> norm_num) ?_ (fun a _ q => ?_)
        · have := hRone y hy
          rw [← hzero] at this
          exact this
        · unfold at_ at q ⊢
          rw [if_neg]
          intro hall
          rw [if_pos] at q
          · norm_num at q
          · intro v hv
            rcases List.mem_cons.1 hv with rfl | hv
            · exact hall v (by simp)
            · exact hall v (List.mem_cons_of_mem _ ((hR v).1 hv).1)
      rw [hzer x hx, hzer _ hφd]

/-- the same factors over a graph with more edges and the same nodes -/
theorem move {B : BN} (hB : B.Prob) {g : Graph} (hw : g.WF) (hn : ∀ v, v ∈ g.nodes ↔ v ∈ B.g.nodes)
    (he : ∀ u v, B.g.Edge u v → g.Edge u v) {dom : Node → List Outcome} (hd : ∀ v ∈ B.g.nodes, dom v = B.dom v) :
    (BN.mk g dom B.k).Prob ∧ ∀ F, (BN.mk g dom B.k).W F = B.W F := by
  refine ⟨⟨⟨hw, fun v hv => ?_, fun v hv => ?_⟩, fun v hv a ha => ?_, fun v hv a ha => ?_⟩, fun F => ?_⟩
  · show (dom v).Nodup
    rw [hd v ((hn v).1 hv)]
    exact hB.nodup v ((hn v).1 hv)
  · exact (hB.scope v ((hn v).1 hv)).mono (fun u hu => hu.imp id (he u v))
  · show ((dom v).map _).sum = 1
    rw [hd v ((hn v).1 hv)]
    exact hB.norm v ((hn v).1 hv) a (fun p hp => by
      rw [← hd p (hB.wf.edgeNodes p v hp).1]
      exact ha p (he p v hp))
  · refine hB.nonneg v ((hn v).1 hv) a (fun u hu => ?_)
    have hun : u ∈ B.g.nodes := by
      rcases hu with rfl | hu
      · exact (hn u).1 hv
      · exact (hB.wf.edgeNodes u v hu).1
    rw [← hd u hun]
    exact ha u (hu.imp id (he u v))
  · have hp : g.nodes.Perm B.g.nodes := (List.perm_ext_iff_of_nodup hw.nodesNodup hB.wf.nodesNodup).2 hn
    unfold W
    show sumOver dom g.nodes _ _ = _
    rw [sumOver_dom_perm (dom' := B.dom) (fun v hv => by rw [hd v ((hn v).1 hv)]), sumOver_perm hp]
    congr 1
    funext a
    congr 1
    exact prod_perm _ hp a

/-- the rule "do what φ says" -/
theorem isRule_pure {B : BN} {d : Node} (hn : (B.dom d).Nodup) (hacyc : ¬ B.g.Edge d d) {φ : Assign → Outcome}
    (hφ : DependsOn φ (fun u => B.g.Edge u d)) (hφd : ∀ z, φ z ∈ B.dom d) : B.IsRule d (fun a => if a d = φ a then 1 else 0) := by
  refine ⟨fun a b hab => ?_, fun a _ => ?_, fun a _ => by split <;> norm_num⟩
  · simp only [hab d (Or.inl rfl), hφ a b (fun v hv => hab v (Or.inr hv))]
  · have : ∀ x, φ (Assign.upd a d x) = φ a := fun x => hφ _ _ (fun v hv => Assign.upd_ne _ _ (by rintro rfl; exact hacyc hv))
    simp only [Assign.upd_same, this]
    exact sum_indicator hn (hφd a)

end BN

theorem trimmed_wf {g H : Graph} (hw : g.WF) (r : List Node) : (g.trimmed H r).WF := Net.wf_filter hw _

/-- Reducing the observations of one decision after the other loses no expected utility. -/
theorem trim_W {m : Macid} (hw : m.g.WF) {order : List Node} {H : Graph} (hH : m.IsRequisiteGraph order H) (hnd : order.Nodup)
    {agent : Agent} (hag : ∀ d ∈ order, m.role d = .decision agent) (hon : ∀ d ∈ order, d ∈ m.g.nodes) {us : List Node}
    (hus : ∀ u ∈ us, m.role u = .utility agent) (hun : ∀ u ∈ us, u ∈ m.g.nodes) {B : BN} (hB : B.Prob) (hg : B.g = m.g)
    (hne : ∀ v ∈ m.g.nodes, B.dom v ≠ []) : ∀ (r l : List Node), order = l ++ r →
    ∃ B' : BN, B'.Prob ∧ B'.g = m.g.trimmed H r ∧ B'.dom = B.dom ∧ (∀ v ∉ r, B'.k v = B.k v) ∧
      B.W (fun a => (us.map a).sum) ≤ B'.W (fun a => (us.map a).sum)
  | [], l, _ => by
    obtain ⟨h1, h2⟩ := BN.move hB (trimmed_wf (H := H) hw []) (fun v => by rw [hg]; rfl)
      (fun u v h => Graph.mem_trimmed.2 ⟨by rw [← hg]; exact h, by simp⟩) (dom := B.dom) (fun _ _ => rfl)
    exact ⟨_, h1, rfl, rfl, fun _ _ => rfl, (h2 _).ge⟩
  | d :: r, l, hl => by
    classical
    obtain ⟨B1, p1, p2, p3, p4, p5⟩ := trim_W hw hH hnd hag hon hus hun hB hg hne r (l ++ [d]) (by simp [hl])
    have hdo : d ∈ order := by rw [hl]; simp
    have hd := hon d hdo
    have hdr : d ∉ r := by
      rw [hl] at hnd
      exact (List.nodup_cons.1 (List.nodup_append.1 hnd).2.1).1
    have hG1 := trimmed_wf (H := H) hw r
    have hd1 : d ∈ B1.g.nodes := by rw [p2]; exact hd
    have hE1 : ∀ x, (m.g.trimmed H r).Edge x d ↔ m.g.Edge x d := fun x => by
      rw [Graph.mem_trimmed]; simp [hdr]
    let Z := (m.g.trimmed H r).parents d
    let N := Z.filter (fun x => decide (¬ H.Edge x d))
    let R := Z.filter (fun x => decide (H.Edge x d))
    have hZ : ∀ v, v ∈ Z ↔ B1.g.Edge v d := fun v => by rw [p2]; exact Graph.mem_parents
    have hNm : ∀ x, x ∈ N ↔ m.g.Edge x d ∧ ¬ H.Edge x d := fun x => by
      simp only [N, Z, List.mem_filter, decide_eq_true_eq, Graph.mem_parents, hE1]
    have hRm : ∀ x, x ∈ R ↔ H.Edge x d := fun x => by
      simp only [R, Z, List.mem_filter, decide_eq_true_eq, Graph.mem_parents, hE1]
      exact ⟨fun h => h.2, fun h => ⟨hH.sub _ _ h, h⟩⟩
    let T := us.filter (fun u => decide (u ∈ (m.g.trimmed H r).descendants d))
    have hT : ∀ u, u ∈ T ↔ u ∈ us ∧ (m.g.trimmed H r).Desc d u := fun u => by
      simp only [T, List.mem_filter, decide_eq_true_eq, Graph.mem_descendants hG1]
    obtain ⟨φ, f1, f2, f3⟩ := BN.best_ignoring p1 hd1 (Z := Z) (R := R) (N := N) (T := T) hZ
      (fun v => by
        simp only [hRm, hNm, Z, Graph.mem_parents, hE1]
        constructor
        · intro h; exact ⟨hH.sub _ _ h, fun q => q.2 h⟩
        · rintro ⟨h1, h2⟩
          by_contra h3
          exact h2 ⟨h1, h3⟩)
      (fun v hv => (List.mem_filter.1 hv).1)
      (fun u hu => by
        rw [p2]
        obtain ⟨hu1, hu2⟩ := (hT u).1 hu
        refine sep_all hG1 (N := N) (Z := fun x => (d :: Z).filter (fun z => decide (z ≠ x))) (fun x hx => (hE1 x).2 ((hNm x).1 hx).1)
          (fun z => ?_) (fun x _ z => ?_) hu2 (fun x hx => ?_)
        · rw [List.mem_cons, hRm, hE1, hNm]
          constructor
          · rintro (h | h)
            · exact Or.inl h
            · exact Or.inr ⟨hH.sub _ _ h, fun q => q.2 h⟩
          · rintro (h | ⟨h1, h2⟩)
            · exact Or.inl h
            · right
              by_contra h3
              exact h2 ⟨h1, h3⟩
        · simp only [List.mem_filter, List.mem_cons, decide_eq_true_eq, Z, Graph.mem_parents]
          tauto
        · obtain ⟨hx1, hx2⟩ := (hNm x).1 hx
          have hxn : x ∈ (m.g.trimmed H r).nodes := (hw.edgeNodes x d hx1).1
          rw [← dconn_reached hG1 hxn (fun z hz => by
            rcases List.mem_cons.1 (List.mem_filter.1 hz).1 with rfl | h
            · exact hd
            · exact (hG1.edgeNodes _ _ (Graph.mem_parents.1 h)).1)]
          intro hc
          apply hx2
          rw [hH.obs l d r hl x]
          refine ⟨(hE1 x).2 hx1, agent, u, hag d hdo, hus u hu1, hu2, _, fun z => ?_, hc⟩
          simp only [List.mem_filter, List.mem_cons, decide_eq_true_eq, Z, Graph.mem_parents]
          exact and_comm)
      (h := fun a => (T.map a).sum)
      (fun a b hab => by
        simp only
        rw [List.map_congr_left (fun u hu => hab u ⟨hu, by rw [p2]; exact hun u ((hT u).1 hu).1⟩)])
    have hne1 : B1.dom d ≠ [] := by rw [p3]; exact hne d hd
    have hnod : (B1.dom d).Nodup := p1.nodup d hd1
    have hloop : ¬ B1.g.Edge d d := fun h => p1.wf.acyclic d (.single h)
    have hrule : B1.IsRule d (fun a => if a d = φ a then 1 else 0) :=
      BN.isRule_pure hnod hloop (f1.mono (fun v hv => (hZ v).1 (List.mem_filter.1 hv).1)) (f2 hne1)
    have himp : (B1.withRule d (B1.k d)).W (fun a => (us.map a).sum) ≤
        (B1.withRule d (fun a => if a d = φ a then 1 else 0)).W (fun a => (us.map a).sum) := by
      refine BN.improve p1 hd1 hZ (Graph.nodup_parents hG1.edgesNodup d) (h1 := fun a => (T.map a).sum)
        (h2 := fun a => ((us.filter (fun u => !decide (u ∈ (m.g.trimmed H r).descendants d))).map a).sum)
        (fun a => Net.sum_split us _ a) (fun a b hab => ?_) (f1.mono (fun v hv => (List.mem_filter.1 hv).1)) (fun z _ => f2 hne1 z)
        f3 (BN.isRule_k p1 hd1) hrule (fun _ _ => rfl)
      simp only
      congr 1
      apply List.map_congr_left
      intro u hu
      obtain ⟨k1, k2⟩ := List.mem_filter.1 hu
      apply hab
      rw [p2]
      refine ⟨hun u k1, fun hdu => ?_⟩
      rcases ReflTransGen.cases_head_iff.1 hdu with rfl | ⟨w, hw1, hw2⟩
      · have := hus d k1
        rw [hag d hdo] at this
        cases this
      · have : u ∈ (m.g.trimmed H r).descendants d := (Graph.mem_descendants hG1).2 (TransGen.head'_iff.2 ⟨w, hw1, hw2⟩)
        simp [this] at k2
    rw [BN.withRule_self] at himp
    -- the new rule does not look at the removed observations
    have hEd : ∀ u v, (m.g.trimmed H (d :: r)).Edge u v ↔ (m.g.trimmed H r).Edge u v ∧ (v = d → H.Edge u v) := by
      intro u v
      rw [Graph.mem_trimmed, Graph.mem_trimmed]
      simp only [List.mem_cons]
      tauto
    have hP := BN.withRule_prob p1 hrule
    refine ⟨⟨m.g.trimmed H (d :: r), B1.dom, (B1.withRule d (fun a => if a d = φ a then 1 else 0)).k⟩, ⟨⟨trimmed_wf hw _, ?_, ?_⟩, ?_, ?_⟩,
      rfl, p3, ?_, ?_⟩
    · intro v hv
      exact p1.nodup v (by rw [p2]; exact hv)
    · intro v hv
      by_cases hvd : v = d
      · subst hvd
        show DependsOn (if v = v then _ else _) _
        rw [if_pos rfl]
        intro a b hab
        simp only
        rw [hab v (Or.inl rfl), f1 a b (fun u hu => hab u (Or.inr ((hEd u v).2 ⟨(hE1 u).2 (hH.sub _ _ ((hRm u).1 hu)), fun _ => (hRm u).1 hu⟩)))]
      · refine (hP.scope v (by show v ∈ B1.g.nodes; rw [p2]; exact hv)).mono (fun u hu => hu.imp id (fun q => (hEd u v).2 ⟨?_, fun e => absurd e hvd⟩))
        have : B1.g.Edge u v := q
        rwa [p2] at this
    · intro v hv a ha
      by_cases hvd : v = d
      · subst hvd
        show ((B1.dom v).map (fun x => (if v = v then (fun a : Assign => if a v = φ a then (1 : Rat) else 0) else B1.k v) (Assign.upd a v x))).sum = 1
        simp only [if_true]
        have : ∀ x, φ (Assign.upd a v x) = φ a := fun x => f1 _ _ (fun u hu => Assign.upd_ne _ _ (by
          rintro rfl
          exact hw.acyclic u (.single (hH.sub _ _ ((hRm u).1 hu)))))
        simp only [Assign.upd_same, this]
        exact sum_indicator hnod (f2 hne1 a)
      · refine hP.norm v (by show v ∈ B1.g.nodes; rw [p2]; exact hv) a (fun u hu => ha u ((hEd u v).2 ⟨?_, fun e => absurd e hvd⟩))
        have : B1.g.Edge u v := hu
        rwa [p2] at this
    · intro v hv a ha
      by_cases hvd : v = d
      · subst hvd
        show (0 : Rat) ≤ (if v = v then (fun a : Assign => if a v = φ a then (1 : Rat) else 0) else B1.k v) a
        rw [if_pos rfl]
        split <;> norm_num
      · refine hP.nonneg v (by show v ∈ B1.g.nodes; rw [p2]; exact hv) a (fun u hu => ha u (hu.imp id (fun q => (hEd u v).2 ⟨?_, fun e => absurd e hvd⟩)))
        have : B1.g.Edge u v := q
        rwa [p2] at this
    · intro v hv
      rw [List.mem_cons, not_or] at hv
      show (if v = d then _ else B1.k v) = _
      rw [if_neg hv.1]
      exact p4 v hv.2
    · refine le_trans p5 (le_trans himp (le_of_eq ?_))
      have hnn : B1.g.nodes = m.g.nodes := by rw [p2]; rfl
      show sumOver B1.dom B1.g.nodes (fun a => (B1.withRule d _).prod B1.g.nodes a * _) _ = _
      rw [hnn]
      rfl

namespace Net

/-- Whatever distribution the decisions follow, some rules that can be stored in the network do at least as well. -/
theorem realise {F : Assign → Rat} : ∀ (ds : List Node) {net : Net}, net.Usable → (∀ d ∈ ds, d ∈ net.g.nodes) →
    DependsOn F (· ∈ net.g.nodes) → ∀ {T : BN}, T.Prob → T.g = net.g → T.dom = net.dom →
    (∀ v ∈ net.g.nodes, v ∉ ds → ∀ a, net.InDom a → T.k v a = net.kernel v a) →
    ∃ net', net'.Usable ∧ OnlyRules net ds net' ∧ T.W F ≤ net'.bn.W F
  | [], net, hU, _, _, T, _, hg, hdm, hk =>
    ⟨net, hU, .rfl' _ _, le_of_eq (BN.W_same (B := net.bn) hg hdm (fun v hv a ha => hk v hv (by simp) a ha) F)⟩
  | d :: ds, net, hU, hds, hF, T, hT, hg, hdm, hk => by
    have hd := hds d (by simp)
    have hTd : d ∈ T.g.nodes := by rw [hg]; exact hd
    have hne : T.dom d ≠ [] := by rw [hdm]; exact (dom_props hU.good hd).2
    have hn := Graph.nodup_parents hU.good.wf.edgesNodup d
    have hZ : ∀ v, v ∈ net.g.parents d ↔ T.g.Edge v d := fun v => by rw [hg]; exact Graph.mem_parents
    obtain ⟨φ, f1, f2, f3⟩ := BN.best_ignoring hT hTd (R := net.g.parents d) (N := []) (T := net.g.nodes) hZ (by simp) (by simp)
      (fun t _ h => by obtain ⟨s, hs, _⟩ := reached_iff.1 h; simp at hs) (h := F) (hF.mono (fun v hv => ⟨hv, by rw [hg]; exact hv⟩))
    let zOf : List Outcome → Assign := fun vals p => (pvOf (net.g.parents d) vals p).getD 0
    have hz : ∀ z : Assign, ∀ p ∈ net.g.parents d, zOf ((net.g.parents d).map z) p = z p := by
      intro z p hp
      simp only [zOf, pvOf_map, restrict, hp, if_true, Option.getD_some]
    let ψ : List Outcome → Outcome := fun vals => φ (zOf vals)
    have hψ : ∀ z : Assign, ψ ((net.g.parents d).map z) = φ z := fun z => f1 _ _ (hz z)
    obtain ⟨c, net1, h1, h2, h3, h4, h5, h6, h7⟩ := set_pure hU hd (φ := ψ)
      (f := fun pv => .ok (.val (ψ ((net.g.parents d).map (fun p => (pv p).getD 0))))) (fun vals hv => by
        obtain ⟨a, rfl, _⟩ := exists_assign hn hv
        refine ⟨?_, by have := f2 hne (zOf ((net.g.parents d).map a)); rw [hdm] at this; exact this⟩
        rw [List.map_congr_left (g := a) (fun p hp => by simp [pvOf_map, restrict, hp])])
    have hr0 : net.bn.IsRule d (net1.kernel d) := isRule_only hd h4 h3.good h3.normalised
    have hr1 : T.IsRule d (net1.kernel d) := by
      obtain ⟨q1, q2, q3⟩ := hr0
      refine ⟨?_, ?_, ?_⟩
      · rw [hg]; exact q1
      · rw [hg, hdm]; exact q2
      · rw [hg, hdm]; exact q3
    obtain ⟨net2, k1, k2, k3⟩ := realise (F := F) ds h3 (fun e he => by rw [h4.g]; exact hds e (by simp [he])) (by rw [h4.g]; exact hF)
      (BN.withRule_prob hT hr1) (by rw [h4.g]; exact hg) (by rw [h4.dom]; exact hdm) (by
        intro v hv hvL a ha
        rw [h4.g] at hv
        show (if v = d then net1.kernel d else T.k v) a = net1.kernel v a
        split
        · rename_i e; subst e; rfl
        · rename_i e
          rw [h4.kernel (by simpa using e)]
          exact hk v hv (by simp [e, hvL]) a ((h4.inDom a).1 ha))
    refine ⟨net2, k1, h4.trans k2 (by simp) (fun w hw => by simp [hw]), le_trans ?_ k3⟩
    have hself : T.W F = (T.withRule d (T.k d)).W F := by rw [BN.withRule_self]
    rw [hself]
    refine BN.improve hT hTd hZ hn (h1 := F) (h2 := fun _ => 0) (fun a => by simp) (dependsOn_const _ _) f1 (fun z _ => f2 hne z)
      f3 (BN.isRule_k hT hTd) hr1 (fun a ha => ?_)
    have ha' : net.InDom a := fun v hv => by
      have := ha v (by rw [hg]; exact hv)
      rwa [hdm] at this
    have := h7 a ((h4.inDom a).2 ha')
    rw [h4.g, hψ] at this
    exact this

theorem utils_nodup {net : Net} (hc : net.m.Consistent) (agent : Agent) : (net.utils agent).Nodup := by
  unfold utils
  cases hg : net.m.agentUtilities.get? agent with
  | none => simp
  | some l => exact hc.util.nodup agent l hg

/-- The main fact about requisite observations: whatever the owner of all decisions can achieve in `n1` it can achieve in any `n2`
where it still has the requisite observations, even if `n2` differs from `n1` at nodes that cannot influence its utilities. -/
theorem dominates {n1 n2 : Net} (hU1 : n1.Usable) (hU2 : n2.Usable) {agent : Agent} {order : List Node} {H : Graph}
    (hH : n1.m.IsRequisiteGraph order H) (hnd : order.Nodup) (hag : ∀ d ∈ order, n1.m.role d = .decision agent)
    (hus : ∀ u, n2.m.role u = .utility agent ↔ n1.m.role u = .utility agent) (hn : ∀ v, v ∈ n2.g.nodes ↔ v ∈ n1.g.nodes)
    (hdom : ∀ v ∈ n1.g.nodes, n2.dom v = n1.dom v) {X : Node → Prop}
    (hX : ∀ v, X v → ∀ u, n1.m.role u = .utility agent → ¬ H.DescEq v u) (hE : ∀ u v, H.Edge u v → n2.g.Edge u v)
    (hk : ∀ v ∈ n1.g.nodes, v ∉ order → ¬ X v → ∀ a, n1.InDom a → n2.kernel v a = n1.kernel v a)
    {n1' : Net} (hU1' : n1'.Usable) (hO : OnlyRules n1 order n1') :
    ∃ n2', n2'.Usable ∧ OnlyRules n2 order n2' ∧ n1'.EU agent ≤ n2'.EU agent := by
  classical
  have hon : ∀ d ∈ order, d ∈ n1.g.nodes := fun d hd => hU1.roles.nodes d (Or.inl (Dict.mem_keys.2 ⟨agent, role_decision.1 (hag d hd)⟩))
  have hun : ∀ u ∈ n1.utils agent, u ∈ n1.g.nodes := fun u hu =>
    hU1.roles.nodes u (Or.inr (Dict.mem_keys.2 ⟨agent, (role_utility hU1.roles).1 ((mem_utils hU1).1 hu)⟩))
  have hB := bn_prob hU1'.good hU1'.normalised
  obtain ⟨B1, p1, p2, p3, p4, p5⟩ := trim_W (m := n1.m) hU1.good.wf hH hnd hag hon (us := n1.utils agent) (fun u hu => (mem_utils hU1).1 hu) hun hB
    (by show n1'.m.g = _; rw [hO.m]) (fun v hv => by show n1'.dom v ≠ []; rw [hO.dom]; exact (dom_props hU1.good hv).2) order [] rfl
  have p3' : B1.dom = n1.dom := by rw [p3]; exact hO.dom
  have hE1 : ∀ u v, B1.g.Edge u v ↔ H.Edge u v := by
    intro u v
    rw [p2, Graph.mem_trimmed]
    constructor
    · rintro ⟨h1, h2⟩
      by_cases hv : v ∈ order
      · exact h2 hv
      · exact hH.other u v h1 hv
    · exact fun h => ⟨hH.sub u v h, fun _ => h⟩
  have hB2 := bn_prob hU2.good hU2.normalised
  have hn1 : ∀ v, v ∈ B1.g.nodes ↔ v ∈ n1.g.nodes := fun v => by rw [p2]; rfl
  -- the same factors, but those of `n2` where the two differ
  let XX : Node → Prop := fun v => X v ∧ v ∉ order
  let k : Node → Assign → Rat := fun v => if XX v then n2.kernel v else B1.k v
  let G : Graph := ⟨n2.g.nodes, n2.g.edges.filter (fun e => decide (XX e.2 ∨ H.Edge e.1 e.2))⟩
  have hGw : G.WF := wf_filter hU2.good.wf _
  have hGe : ∀ u v, G.Edge u v ↔ n2.g.Edge u v ∧ (XX v ∨ H.Edge u v) := by
    intro u v
    show (u, v) ∈ n2.g.edges.filter _ ↔ _
    rw [List.mem_filter, decide_eq_true_iff]
    rfl
  have hGX : ∀ u v, XX v → (G.Edge u v ↔ n2.g.Edge u v) := fun u v hv => by rw [hGe]; simp [hv]
  have hGH : ∀ u v, ¬ XX v → (G.Edge u v ↔ B1.g.Edge u v) := fun u v hv => by
    rw [hGe, hE1]
    exact ⟨fun h => h.2.resolve_left hv, fun h => ⟨hE u v h, Or.inr h⟩⟩
  have hdm : ∀ v ∈ n2.g.nodes, n2.dom v = B1.dom v := fun v hv => by rw [p3']; exact hdom v ((hn v).1 hv)
  let T0 : BN := ⟨G, n2.dom, k⟩
  have hT0 : T0.Prob := by
    refine ⟨⟨hGw, fun v hv => hB2.nodup v hv, fun v hv => ?_⟩, fun v hv a ha => ?_, fun v hv a ha => ?_⟩
    · show DependsOn (k v) _
      by_cases hv' : XX v
      · simp only [k, if_pos hv']
        exact (hB2.scope v hv).mono (fun u hu => hu.imp id (hGX u v hv').2)
      · simp only [k, if_neg hv']
        exact (p1.scope v ((hn1 v).2 ((hn v).1 hv))).mono (fun u hu => hu.imp id (hGH u v hv').2)
    · show ((n2.dom v).map (fun x => k v (Assign.upd a v x))).sum = 1
      by_cases hv' : XX v
      · simp only [k, if_pos hv']
        exact hB2.norm v hv a (fun p hp => ha p ((hGX p v hv').2 hp))
      · simp only [k, if_neg hv']
        rw [hdm v hv]
        exact p1.norm v ((hn1 v).2 ((hn v).1 hv)) a (fun p hp => by
          have h1 := (hGH p v hv').2 hp
          rw [← hdm p (hGw.edgeNodes p v h1).1]
          exact ha p h1)
    · show 0 ≤ k v a
      by_cases hv' : XX v
      · simp only [k, if_pos hv']
        exact hB2.nonneg v hv a (fun u hu => ha u (hu.imp id (hGX u v hv').2))
      · simp only [k, if_neg hv']
        refine p1.nonneg v ((hn1 v).2 ((hn v).1 hv)) a (fun u hu => ?_)
        have h1 : u = v ∨ G.Edge u v := hu.imp id (hGH u v hv').2
        have hu' : u ∈ n2.g.nodes := by
          rcases h1 with rfl | h1
          · exact hv
          · exact (hGw.edgeNodes u v h1).1
        rw [← hdm u hu']
        exact ha u h1
  -- only the ancestors of utilities matter
  have hWU : T0.W (fun a => ((n1.utils agent).map a).sum) = B1.W (fun a => ((n1.utils agent).map a).sum) := by
    let U := n1.g.nodes.filter (fun v => decide (∃ u ∈ n1.utils agent, H.DescEq v u))
    have hUm : ∀ v, v ∈ U ↔ v ∈ n1.g.nodes ∧ ∃ u ∈ n1.utils agent, H.DescEq v u := fun v => by
      simp only [U, List.mem_filter, decide_eq_true_eq]
    have hUn : U.Nodup := hU1.good.wf.nodesNodup.filter _
    have hUX : ∀ v ∈ U, ¬ XX v := by
      intro v hv hx
      obtain ⟨_, u, hu, hd⟩ := (hUm v).1 hv
      exact hX v hx.1 u ((mem_utils hU1).1 hu) hd
    have hanc : ∀ u v, H.Edge u v → v ∈ U → u ∈ U := by
      intro u v h hv
      obtain ⟨_, w, hw, hd⟩ := (hUm v).1 hv
      exact (hUm u).2 ⟨(hU1.good.wf.edgeNodes u v (hH.sub u v h)).1, w, hw, ReflTransGen.head h hd⟩
    have hf : DependsOn (fun a : Assign => ((n1.utils agent).map a).sum) (· ∈ U) := by
      intro a b hab
      simp only
      rw [List.map_congr_left (fun u hu => hab u ((hUm u).2 ⟨hun u hu, u, hu, .refl⟩))]
    rw [BN.W_ancestral hT0 hUn (fun v hv => (hn v).2 ((hUm v).1 hv).1) (fun u v h hv => by
        have h' : G.Edge u v := h
        exact hanc u v ((hE1 u v).1 ((hGH u v (hUX v hv)).1 h')) hv) hf (fun _ => 0),
      BN.W_ancestral p1 hUn (fun v hv => (hn1 v).2 ((hUm v).1 hv).1) (fun u v h hv => hanc u v ((hE1 u v).1 h) hv) hf (fun _ => 0)]
    show sumOver n2.dom U _ _ = _
    rw [sumOver_dom_perm (dom' := B1.dom) (fun v hv => by rw [hdm v ((hn v).2 ((hUm v).1 hv).1)])]
    congr 1
    funext a
    congr 1
    unfold BN.prod
    congr 1
    apply List.map_congr_left
    intro v hv
    show k v a = B1.k v a
    simp only [k, if_neg (hUX v hv)]
  obtain ⟨hT, hTW⟩ := BN.move hT0 (g := n2.g) hU2.good.wf (fun v => Iff.rfl) (fun u v h => ((hGe u v).1 h).1) (dom := n2.dom) (fun _ _ => rfl)
  have hF : DependsOn (fun a : Assign => ((n1.utils agent).map a).sum) (· ∈ n2.g.nodes) := by
    intro a b hab
    simp only
    rw [List.map_congr_left (fun u hu => hab u ((hn u).2 (hun u hu)))]
  obtain ⟨n2', k1, k2, k3⟩ := realise (F := fun a => ((n1.utils agent).map a).sum) order hU2 (fun d hd => (hn d).2 (hon d hd)) hF hT rfl rfl (by
    intro v hv hvo a ha
    show k v a = n2.kernel v a
    by_cases hv' : X v
    · simp only [k, XX, hv', hvo, not_false_eq_true, and_self, if_true]
    · have : ¬ XX v := fun h => hv' h.1
      simp only [k, if_neg this]
      rw [p4 v hvo]
      show n1'.kernel v a = _
      rw [hO.kernel hvo]
      exact (hk v ((hn v).1 hv) hvo hv' a (fun u hu => by rw [← hdom u hu]; exact ha u ((hn u).2 hu))).symm)
  refine ⟨n2', k1, k2, ?_⟩
  have hperm : (n2'.utils agent).Perm (n1.utils agent) := (List.perm_ext_iff_of_nodup (utils_nodup k1.roles agent) (utils_nodup hU1.roles agent)).2
    (fun u => by rw [mem_utils k1, mem_utils hU1, k2.m]; exact hus u)
  have e1 : n1'.EU agent = n1'.bn.W (fun a => ((n1.utils agent).map a).sum) := by
    rw [EU_eq hU1', hO.m]; rfl
  have e2 : n2'.EU agent = n2'.bn.W (fun a => ((n1.utils agent).map a).sum) := by
    rw [EU_eq k1]
    congr 1
    funext a
    exact (hperm.map a).sum_eq
  rw [e1, e2]
  refine le_trans p5 ?_
  rw [← hWU, ← hTW]
  exact k3

end Net
end Verif

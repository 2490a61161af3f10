import Verif.Spec.Relevance
import Verif.Lemmas.Backward
import Verif.Props.Value
import Verif.Lemmas.Support
import Verif.Lemmas.Trim
import Verif.Lemmas.Enumerate
import Mathlib.Tactic.LinearCombination

/-!
# Prospects of an action
-/

namespace Verif

open Graph Relation Macid

namespace BN

section
variable {B : BN} (hB : B.Prob) {d : Node} (hd : d ∈ B.g.nodes) {Z : List Node} (hZ : ∀ v, v ∈ Z ↔ B.g.Edge v d)
include hB hd hZ

/-- playing `y` in one context -/
theorem deviate {σ : Assign → Rat} (hσ : B.IsRule d σ) (z : Assign) {y : Outcome} (hy : y ∈ B.dom d) :
    ∃ σ', B.IsRule d σ' ∧ ∀ h : Assign → Rat, (B.withRule d σ').W h = (B.withRule d σ).W h + B.act d Z z y h -
      ((B.dom d).map (fun x => σ (Assign.upd z d x) * B.act d Z z x h)).sum := by
  classical
  have hdZ := not_mem_parents hB hZ
  have hi := isRule_ind hB hd hy
  let σ' : Assign → Rat := fun a => if ∀ v ∈ Z, a v = z v then (if a d = y then 1 else 0) else σ a
  have hc : ∀ (a : Assign) x, (∀ v ∈ Z, Assign.upd a d x v = z v) ↔ ∀ v ∈ Z, a v = z v := by
    intro a x
    refine forall₂_congr (fun v hv => ?_)
    rw [Assign.upd_ne _ _ (by rintro rfl; exact hdZ hv)]
  have hσ' : B.IsRule d σ' := by
    refine ⟨fun a b hab => ?_, fun a ha => ?_, fun a ha => ?_⟩
    · have : (∀ v ∈ Z, a v = z v) ↔ ∀ v ∈ Z, b v = z v := forall₂_congr (fun v hv => by rw [hab v (Or.inr ((hZ v).1 hv))])
      simp only [σ', this, hσ.scope a b hab, hab d (Or.inl rfl)]
    · simp only [σ', hc]
      by_cases q : ∀ v ∈ Z, a v = z v
      · simp only [if_pos q]
        exact hi.norm a ha
      · simp only [if_neg q]
        exact hσ.norm a ha
    · simp only [σ']
      split
      · exact hi.nonneg a ha
      · exact hσ.nonneg a ha
  refine ⟨σ', hσ', fun h => ?_⟩
  have hsplit : ∀ τ : Assign → Rat, (B.withRule d τ).W h = (B.withRule d τ).W (at_ Z z h) + (B.withRule d τ).W (fun a => if ∀ v ∈ Z, a v = z v then 0 else h a) := by
    intro τ
    rw [← W_add]
    congr 1
    funext a
    unfold at_
    split <;> simp
  have hoff : (B.withRule d σ').W (fun a => if ∀ v ∈ Z, a v = z v then 0 else h a) = (B.withRule d σ).W (fun a => if ∀ v ∈ Z, a v = z v then 0 else h a) := by
    rw [W_withRule hB.wf.nodesNodup hd, W_withRule hB.wf.nodesNodup hd σ]
    congr 1
    funext a
    by_cases q : ∀ v ∈ Z, a v = z v
    · simp only [if_pos q, mul_zero]
    · simp only [σ', if_neg q]
  rw [hsplit σ', hsplit σ, hoff, W_ctx hB hd hZ hσ'.scope, W_ctx hB hd hZ hσ.scope]
  have e : ((B.dom d).map (fun x => σ' (Assign.upd z d x) * B.act d Z z x h)).sum = B.act d Z z y h := by
    rw [← sum_indicator_mul (hB.nodup d hd) hy (fun x => B.act d Z z x h)]
    congr 1
    apply List.map_congr_left
    intro x _
    simp only [σ', hc, implies_true, if_true, Assign.upd_same]
    split <;> simp
  rw [e]
  ring

/-- an impossible context has no weight -/
theorem act_zero {x : Outcome} (hx : x ∈ B.dom d) (z : Assign) (h0 : B.act d Z z x (fun _ => 1) = 0) (h : Assign → Rat) : B.act d Z z x h = 0 := by
  have hi := isRule_ind hB hd hx
  have e := fun F => W_fam hB hd hZ hi.scope z x F
  simp only [Assign.upd_same, if_true, one_mul] at e
  rw [← e] at h0 ⊢
  refine W_impossible (withRule_prob hB hi) (fun a ha => ?_)
  by_contra hc
  have hq : ∀ v ∈ d :: Z, a v = Assign.upd z d x v := by
    by_contra q
    exact hc (by unfold at_; rw [if_neg q])
  have := W_pos (withRule_prob hB hi) (f := at_ (d :: Z) (Assign.upd z d x) (fun _ => 1)) (fun b _ => by unfold at_; split <;> norm_num) (fun a b hab => by
    unfold at_
    have : (∀ v ∈ d :: Z, a v = Assign.upd z d x v) ↔ ∀ v ∈ d :: Z, b v = Assign.upd z d x v := by
      refine forall₂_congr (fun v hv => ?_)
      rw [hab v]
      show v ∈ B.g.nodes
      rcases List.mem_cons.1 hv with rfl | hv
      · exact hd
      · exact (hB.wf.edgeNodes _ _ ((hZ v).1 hv)).1
    simp only [this]) ha (by unfold at_; rw [if_pos hq]; norm_num)
  rw [h0] at this
  exact lt_irrefl _ this

end

end BN

namespace Net

theorem doBN_one {net : Net} {d : Node} {x : Outcome} (F : Assign → Rat) :
    (net.doBN [(d, x)]).W F = (net.bn.withRule d (fun a => if a d = x then 1 else 0)).W F := by
  unfold BN.W BN.prod doBN BN.withRule bn CutGraph
  apply sumOver_congr
  intro b _ _
  congr 2
  apply List.map_congr_left
  intro v _
  by_cases e : v = d
  · subst e; simp
  · simp [e]

section
variable {net : Net} (hU : net.Usable) {d : Node} (hd : d ∈ net.g.nodes)
include hU hd

theorem do_act {x : Outcome} (hx : x ∈ net.dom d) (z : Assign) (F : Assign → Rat) :
    (net.doBN [(d, x)]).W (fun a => F a * if Ctx (net.seenBy d z) a then 1 else 0) = net.bn.act d (net.g.parents d) z x F := by
  have hB := bn_prob hU.good hU.normalised
  have hZ : ∀ v, v ∈ net.g.parents d ↔ net.bn.g.Edge v d := fun v => Graph.mem_parents
  have hσ := BN.isRule_ind hB (d := d) hd hx
  have e := BN.W_fam hB hd hZ hσ.scope z x F
  simp only [Assign.upd_same, if_true, one_mul] at e
  rw [← e, doBN_one]
  refine BN.W_possible (BN.withRule_prob hB hσ) (fun a ha => ?_)
  have h1 : a d = x := by
    have := ha.2 d hd
    by_contra hc
    simp [BN.withRule, hc] at this
  rw [BN.at_cons (BN.not_mem_parents hB hZ), if_pos h1]
  unfold BN.at_
  have : Ctx (net.seenBy d z) a = true ↔ ∀ v ∈ net.g.parents d, a v = z v := by
    simp [Ctx, seenBy]
  by_cases hc : ∀ v ∈ net.g.parents d, a v = z v
  · rw [if_pos (this.2 hc), if_pos hc, mul_one]
  · rw [if_neg (fun q => hc (this.1 q)), if_neg hc, mul_zero]

theorem PDo_act {x : Outcome} (hx : x ∈ net.dom d) (z : Assign) :
    net.PDo [(d, x)] (Ctx (net.seenBy d z)) = net.bn.act d (net.g.parents d) z x (fun _ => 1) := by
  rw [PDo_eq_W (by simpa using hd), ← do_act hU hd hx z]
  simp

theorem P_seen {x : Outcome} (hx : x ∈ net.dom d) (z : Assign) (hz : ∀ p ∈ net.g.parents d, z p ∈ net.dom p) :
    net.bn.act d (net.g.parents d) z x (fun _ => 1) = net.P (Ctx (net.seenBy d z)) := by
  rw [act_context hU.good hU.normalised hd z hz hx]
  congr 1
  funext a
  rw [Bool.eq_iff_iff]
  simp [Ctx, seenBy, Has]

theorem P_seen_dom {z : Assign} (h : net.P (Ctx (net.seenBy d z)) ≠ 0) : ∀ p ∈ net.g.parents d, z p ∈ net.dom p := by
  by_contra hc
  push Not at hc
  obtain ⟨p, hp, hpz⟩ := hc
  apply h
  have hB := bn_prob hU.good hU.normalised
  rw [P_eq_W]
  refine BN.W_impossible hB (fun a ha => ?_)
  rw [if_neg]
  intro q
  have : a p = z p := by
    simp only [Ctx, seenBy, List.all_map, List.all_eq_true, Function.comp, decide_eq_true_eq] at q
    exact q p hp
  have h2 := ha.1 p (hU.good.wf.edgeNodes _ _ (Graph.mem_parents.1 hp)).1
  rw [this] at h2
  exact hpz h2

omit hd in
theorem utils_mem {agent : Agent} {u : Node} (hu : u ∈ net.utils agent) : u ∈ net.g.nodes :=
  hU.roles.nodes u (Or.inr (Dict.mem_keys.2 ⟨agent, (role_utility hU.roles).1 ((mem_utils hU).1 hu)⟩))

theorem prospect_act {agent : Agent} {x : Outcome} (hx : x ∈ net.dom d) (z : Assign) :
    net.Prospect agent d z x = net.bn.act d (net.g.parents d) z x (fun a => ((net.utils agent).map a).sum) /
      net.bn.act d (net.g.parents d) z x (fun _ => 1) := by
  unfold Prospect
  have : ∀ (l : List Node), (∀ u ∈ l, u ∈ net.g.nodes) → (l.map (net.Mean [(d, x)] (net.seenBy d z))).sum =
      net.bn.act d (net.g.parents d) z x (fun a => (l.map a).sum) / net.bn.act d (net.g.parents d) z x (fun _ => 1) := by
    intro l
    induction l with
    | nil =>
      intro _
      have h0 : net.bn.act d (net.g.parents d) z x (fun _ => 0) = 0 := by
        rw [← do_act hU hd hx]
        have := BN.W_mul_const (net.doBN [(d, x)]) 0 (fun _ => 1)
        simpa using this
      simp [h0]
    | cons u l ih =>
      intro hl
      simp only [List.map_cons, List.sum_cons]
      rw [ih (fun w hw => hl w (by simp [hw])), Mean_eq hU.good (by simpa using hd) (hl u (by simp))]
      unfold EW
      rw [PDo_act hU hd hx, do_act hU hd hx, ← add_div]
      congr 1
      rw [← do_act hU hd hx, ← do_act hU hd hx, ← do_act hU hd hx, ← BN.W_add]
      congr 1
      funext a
      ring
  exact this _ (fun u hu => utils_mem hU hu)

end

/-! ## A CPD that is not relevant -/

theorem BN.act_nondesc {B : BN} (hB : B.Prob) {d : Node} (hd : d ∈ B.g.nodes) {Z : List Node} (hZ : ∀ v, v ∈ Z ↔ B.g.Edge v d)
    {x y : Outcome} (hx : x ∈ B.dom d) (hy : y ∈ B.dom d) (z : Assign) {h : Assign → Rat}
    (hh : DependsOn h (fun v => v ∈ B.g.nodes ∧ ¬ B.g.DescEq d v)) : B.act d Z z x h = B.act d Z z y h := by
  have key : ∀ x ∈ B.dom d, (B.withRule d (fun a => if a d = x then 1 else 0)).W (BN.at_ Z z h) = B.act d Z z x h := by
    intro x hx
    rw [BN.W_ctx hB hd hZ (BN.isRule_ind hB hd hx).scope]
    have := sum_indicator_mul (hB.nodup d hd) hx (fun y => B.act d Z z y h)
    rw [← this]
    congr 1
    apply List.map_congr_left
    intro y _
    simp
  rw [← key x hx, ← key y hy]
  apply BN.W_nondesc hB (BN.isRule_ind hB hd hx) (BN.isRule_ind hB hd hy)
  intro a b hab
  have : ∀ v ∈ Z, a v = b v := fun v hv => hab v ⟨(hB.wf.edgeNodes v d ((hZ v).1 hv)).1, fun h =>
    hB.wf.acyclic d (TransGen.tail'_iff.2 ⟨v, h, (hZ v).1 hv⟩)⟩
  unfold BN.at_
  have e : (∀ v ∈ Z, a v = z v) ↔ ∀ v ∈ Z, b v = z v := forall₂_congr (fun v hv => by rw [this v hv])
  simp only [e, hh a b hab]

theorem withParent_wf {g : Graph} (hw : g.WF) {n v : Node} (hn : n ∉ g.nodes) (hv : v ∈ g.nodes) : (g.withParent n v).WF := by
  have he := sourceExt_withParent hn hv
  refine ⟨List.nodup_cons.2 ⟨hn, hw.nodesNodup⟩, List.nodup_cons.2 ⟨fun h => hn (hw.edgeNodes n v h).1, hw.edgesNodup⟩, fun a b h => ?_, fun a h => ?_⟩
  · rcases (he.edge a b).1 h with q | ⟨rfl, rfl⟩
    · exact ⟨List.mem_cons_of_mem _ (hw.edgeNodes _ _ q).1, List.mem_cons_of_mem _ (hw.edgeNodes _ _ q).2⟩
    · exact ⟨List.mem_cons_self, List.mem_cons_of_mem _ hv⟩
  · have ha : a ∈ g.nodes := by
      obtain ⟨c, _, hc⟩ := TransGen.tail'_iff.1 h
      rcases (he.edge c a).1 hc with q | ⟨_, rfl⟩
      · exact (hw.edgeNodes _ _ q).2
      · exact hv
    obtain ⟨c, h1, h2⟩ := TransGen.tail'_iff.1 h
    have h1' := (he.descEq_old hw ha).1 h1
    have hc := descEq_mem hw h1' ha
    exact hw.acyclic a (TransGen.tail'_iff.2 ⟨c, h1', (he.edge_old hc).1 h2⟩)

theorem parent_sep {m : Macid} (hc : m.Consistent) {n : Node} (hn : n ∉ m.g.nodes) {d u v : Node} {a : Agent} (hd : m.role d = .decision a)
    (hu : m.role u = .utility a) (hdu : m.g.Desc d u) (hv : v ∈ m.g.nodes) (hr : ¬ m.RReach d v) :
    ¬ Reached (m.g.withParent n v) (d :: m.g.parents d) [n] u := by
  have hdn : d ∈ m.g.nodes := hc.nodes d (Or.inl (Dict.mem_keys.2 ⟨a, role_decision.1 hd⟩))
  have hZ : ∀ z ∈ d :: m.g.parents d, z ∈ m.g.nodes := by
    intro z hz
    rcases mem_family.1 hz with rfl | h'
    · exact hdn
    · exact (hc.wf.edgeNodes _ _ h').1
  have hw := withParent_wf hc.wf hn hv
  have hs : n ∈ (m.g.withParent n v).nodes := List.mem_cons_self
  have hz : d :: m.g.parents d ⊆ (m.g.withParent n v).nodes := fun x hx => List.mem_cons_of_mem _ (hZ x hx)
  intro hreach
  apply hr
  refine ⟨a, u, hd, hu, hdu, d :: m.g.parents d, n, fun z => mem_family, hn, ?_⟩
  obtain ⟨b, e1, e2⟩ := isDConnected_reached hw (fun _ _ => 0) (t := u) hs hz
  obtain ⟨b', e3, e4⟩ := isDConnected_spec hw (fun _ _ => 0) (t := u) hs hz
  rw [e1] at e3
  cases e3
  exact e4.1 (e2.2 hreach)

/-- The utilities split into a part that `d` cannot influence and a part that, in every context of `d`,
is paid the same with both CPDs of `v`. -/
theorem relevance_split {N N' : Net} (hU : N.Usable) (hU' : N'.Usable) {v : Node} (hO : OnlyRules N [v] N') {d : Node} {agent : Agent}
    (hd : N.m.role d = .decision agent) (hv : v ∈ N.g.nodes) (hr : ¬ N.m.RReach d v) :
    ∃ h1 h2 : Assign → Rat, (fun a : Assign => ((N.utils agent).map a).sum) = (fun a => h1 a + h2 a) ∧
      DependsOn h2 (fun v => v ∈ N.g.nodes ∧ ¬ N.g.DescEq d v) ∧
      ∀ z : Assign, ∀ x ∈ N.dom d, N.bn.act d (N.g.parents d) z x h1 * N'.bn.act d (N.g.parents d) z x (fun _ => 1) =
        N'.bn.act d (N.g.parents d) z x h1 * N.bn.act d (N.g.parents d) z x (fun _ => 1) := by
  classical
  have hdn : d ∈ N.g.nodes := hU.roles.nodes d (Or.inl (Dict.mem_keys.2 ⟨agent, role_decision.1 hd⟩))
  have hB := bn_prob hU.good hU.normalised
  have hB' := bn_prob hU'.good hU'.normalised
  have hgB : N'.bn.g = N.bn.g := hO.g
  have hdB : N'.bn.dom = N.bn.dom := hO.dom
  have hZ : ∀ w, w ∈ N.g.parents d ↔ N.bn.g.Edge w d := fun w => Graph.mem_parents
  let dn := (N.utils agent).filter (fun u => decide (N.g.Desc d u))
  let up := (N.utils agent).filter (fun u => !decide (N.g.Desc d u))
  refine ⟨fun a => (dn.map a).sum, fun a => (up.map a).sum, ?_, ?_, ?_⟩
  · funext a
    exact sum_split _ _ _
  · intro a b hab
    show (up.map a).sum = (up.map b).sum
    congr 1
    apply List.map_congr_left
    intro u hu
    obtain ⟨h1, h2⟩ := List.mem_filter.1 hu
    refine hab u ⟨utils_mem hU h1, fun h => ?_⟩
    have hnd : ¬ N.g.Desc d u := by simpa using h2
    rcases Relation.reflTransGen_iff_eq_or_transGen.1 h with rfl | q
    · have := (mem_utils hU).1 h1
      rw [hd] at this
      cases this
    · exact hnd q
  · obtain ⟨n, hn⟩ := exists_fresh N.g.nodes
    intro z x hx
    refine BN.act_cross hB hB' hgB hdB hdn hZ (Ds := (· = v)) (fun w _ _ hw a _ => hO.kernel (by simpa using hw) a)
      (G := N.g.withParent n v) (S := [n]) (T := dn) (fun a b h => List.mem_cons_of_mem _ h) (fun w _ hw => ⟨n, by simp, fun q => ?_, ?_⟩)
      (fun u hu => ?_) (fun a b hab => ?_) z hx
    · apply hn
      rcases mem_family.1 q with rfl | q
      · exact hdn
      · exact (hU.good.wf.edgeNodes _ _ q).1
    · rw [hw]; exact List.mem_cons_self
    · obtain ⟨h1, h2⟩ := List.mem_filter.1 hu
      exact parent_sep hU.roles hn hd ((mem_utils hU).1 h1) (by simpa using h2) hv hr
    · show (dn.map a).sum = (dn.map b).sum
      congr 1
      apply List.map_congr_left
      intro u hu
      exact hab u ⟨hu, utils_mem hU (List.mem_filter.1 hu).1⟩

/-- the advantage of one action over another does not depend on an irrelevant CPD -/
theorem prospect_irrelevant {N N' : Net} (hU : N.Usable) (hU' : N'.Usable) {v : Node} (hO : OnlyRules N [v] N') {d : Node} {agent : Agent}
    (hd : N.m.role d = .decision agent) (hv : v ∈ N.g.nodes) (hr : ¬ N.m.RReach d v) {z : Assign}
    (hp : N.P (Ctx (N.seenBy d z)) ≠ 0) (hp' : N'.P (Ctx (N'.seenBy d z)) ≠ 0) {x y : Outcome} (hx : x ∈ N.dom d) (hy : y ∈ N.dom d) :
    N.Prospect agent d z x - N.Prospect agent d z y = N'.Prospect agent d z x - N'.Prospect agent d z y := by
  classical
  have hdn : d ∈ N.g.nodes := hU.roles.nodes d (Or.inl (Dict.mem_keys.2 ⟨agent, role_decision.1 hd⟩))
  have hdn' : d ∈ N'.g.nodes := by rw [hO.g]; exact hdn
  have hx' : x ∈ N'.dom d := by rw [hO.dom]; exact hx
  have hy' : y ∈ N'.dom d := by rw [hO.dom]; exact hy
  have hB := bn_prob hU.good hU.normalised
  have hB' := bn_prob hU'.good hU'.normalised
  have hgB : N'.bn.g = N.bn.g := hO.g
  have hdB : N'.bn.dom = N.bn.dom := hO.dom
  have hZ : ∀ w, w ∈ N.g.parents d ↔ N.bn.g.Edge w d := fun w => Graph.mem_parents
  have hZ' : ∀ w, w ∈ N.g.parents d ↔ N'.bn.g.Edge w d := fun w => by rw [hgB]; exact Graph.mem_parents
  have hut : N'.utils agent = N.utils agent := by unfold utils; rw [hO.m]
  rw [← P_seen hU hdn hx z (P_seen_dom hU hdn hp)] at hp
  rw [← P_seen hU' hdn' hx' z (P_seen_dom hU' hdn' hp')] at hp'
  rw [prospect_act hU hdn hx, prospect_act hU hdn hy, prospect_act hU' hdn' hx', prospect_act hU' hdn' hy', hut, hO.g]
  rw [hO.g] at hp'
  rw [← BN.act_one hB hdn hZ hx hy, ← BN.act_one hB' hdn' hZ' hx' hy']
  obtain ⟨h1, h2, hsplit, hupD, hcross⟩ := relevance_split hU hU' hO hd hv hr
  have hadd : ∀ (M : Net) (Z : List Node) (x : Outcome), M.bn.act d Z z x (fun a => h1 a + h2 a) = M.bn.act d Z z x h1 + M.bn.act d Z z x h2 := by
    intro M Z x
    unfold BN.act
    rw [← BN.W_add]
    congr 1
    funext a
    unfold BN.at_
    split
    · rfl
    · simp
  rw [hsplit, hadd, hadd, hadd, hadd]
  have eU := BN.act_nondesc hB hdn hZ hx hy z hupD
  have eU' := BN.act_nondesc hB' hdn' hZ' hx' hy' z (h := h2) (by rw [hgB]; exact hupD)
  have c1 := hcross z x hx
  have c2 := hcross z y hy
  rw [← BN.act_one hB hdn hZ hx hy, ← BN.act_one hB' hdn' hZ' hx' hy'] at c2
  rw [eU, eU', div_sub_div_same, div_sub_div_same, div_eq_div_iff hp hp']
  linear_combination c1 - c2

/-- a rule that is best is best for the network with that rule -/
theorem bestRule_of {N n : Net} (hU : N.Usable) {d : Node} {agent : Agent} (hu : n.Usable) (ho : OnlyRules N [d] n)
    (h : ∀ σ, N.bn.IsRule d σ → (N.bn.withRule d σ).W (fun a => ((N.utils agent).map a).sum) ≤
      (N.bn.withRule d (n.kernel d)).W (fun a => ((N.utils agent).map a).sum)) (hdn : d ∈ N.g.nodes) : n.BestRule agent d := by
  intro m hm om
  have hB := bn_prob hm.good hm.normalised
  have o2 : OnlyRules N [d] m := by
    exact OnlyRules.trans ho om (fun w hw => hw) (fun w hw => hw)
  have r := isRule_only hdn o2 hm.good hm.normalised
  have := h _ r
  rw [EU_eq hm, EU_eq hu, om.m, ho.m, bn_only o2, bn_only ho]
  exact this

/-- If `v` is not r-reachable then one rule is best with both CPDs of `v`. -/
theorem common_rule {N N' : Net} (hU : N.Usable) (hU' : N'.Usable) {v : Node} (hO : OnlyRules N [v] N') {d : Node} {agent : Agent}
    (hd : N.m.role d = .decision agent) (hv : v ∈ N.g.nodes) (hr : ¬ N.m.RReach d v) : CommonRule N N' agent d := by
  classical
  have hdn : d ∈ N.g.nodes := hU.roles.nodes d (Or.inl (Dict.mem_keys.2 ⟨agent, role_decision.1 hd⟩))
  have hdn' : d ∈ N'.g.nodes := by rw [hO.g]; exact hdn
  have hB := bn_prob hU.good hU.normalised
  have hB' := bn_prob hU'.good hU'.normalised
  have hgB : N'.bn.g = N.bn.g := hO.g
  have hdB : N'.bn.dom = N.bn.dom := hO.dom
  have hZ : ∀ w, w ∈ N.g.parents d ↔ N.bn.g.Edge w d := fun w => Graph.mem_parents
  have hZ' : ∀ w, w ∈ N.g.parents d ↔ N'.bn.g.Edge w d := fun w => by rw [hgB]; exact Graph.mem_parents
  have hZn : (N.g.parents d).Nodup := Graph.nodup_parents hU.good.wf.edgesNodup d
  have hut : N'.utils agent = N.utils agent := by unfold utils; rw [hO.m]
  obtain ⟨h1, h2, hsplit, hupD, hcross⟩ := relevance_split hU hU' hO hd hv hr
  have hne := (dom_props hU.good hdn).2
  let Z := N.g.parents d
  let pick : Assign → Outcome := fun z =>
    if N.bn.act d Z z (Classical.choose (exists_max hne (fun x => N.bn.act d Z z x h1))) (fun _ => 1) ≠ 0
    then Classical.choose (exists_max hne (fun x => N.bn.act d Z z x h1))
    else Classical.choose (exists_max hne (fun x => N'.bn.act d Z z x h1))
  -- only the values of the parents count
  let cut : Assign → Assign := fun a w => if w ∈ Z then a w else 0
  let φ : Assign → Outcome := fun a => pick (cut a)
  have hcut : ∀ a : Assign, ∀ w ∈ Z, cut a w = a w := fun a w hw => by simp [cut, hw]
  have hact : ∀ (M : Net) (a : Assign) x h, M.bn.act d Z (cut a) x h = M.bn.act d Z a x h := by
    intro M a x h
    exact BN.act_congr (BN.not_mem_parents hB hZ) (fun w hw => hcut a w hw) _ _
  have hφ : DependsOn φ (· ∈ Z) := by
    intro a b hab
    have : cut a = cut b := by
      funext w
      simp only [cut]
      split
      · rename_i hw; exact hab w hw
      · rfl
    simp only [φ, this]
  have hpickd : ∀ z, pick z ∈ N.dom d := by
    intro z
    simp only [pick]
    split
    · exact (Classical.choose_spec (exists_max hne (fun x => N.bn.act d Z z x h1))).1
    · exact (Classical.choose_spec (exists_max hne (fun x => N'.bn.act d Z z x h1))).1
  have hmax : ∀ z, ∀ x ∈ N.dom d, N.bn.act d Z z x h1 ≤ N.bn.act d Z z (pick z) h1 := by
    intro z x hx
    simp only [pick]
    obtain ⟨q1, q2⟩ := Classical.choose_spec (exists_max hne (fun x => N.bn.act d Z z x h1))
    split
    · exact q2 x hx
    · rename_i h0
      have h0 := not_not.1 h0
      rw [BN.act_zero hB hdn hZ hx z (by rw [BN.act_one hB hdn hZ hx q1]; exact h0)]
      have hm := (Classical.choose_spec (exists_max hne (fun x => N'.bn.act d Z z x h1))).1
      rw [BN.act_zero hB hdn hZ hm z (by rw [BN.act_one hB hdn hZ hm q1]; exact h0)]
  have hmax' : ∀ z, ∀ x ∈ N.dom d, N'.bn.act d Z z x h1 ≤ N'.bn.act d Z z (pick z) h1 := by
    intro z x hx
    have hx' : x ∈ N'.dom d := by rw [hO.dom]; exact hx
    have hpd := hpickd z
    by_cases h0 : N.bn.act d Z z x (fun _ => 1) = 0
    · have e : pick z = Classical.choose (exists_max hne (fun x => N'.bn.act d Z z x h1)) := by
        simp only [pick]
        rw [if_neg]
        obtain ⟨q1, q2⟩ := Classical.choose_spec (exists_max hne (fun x => N.bn.act d Z z x h1))
        rw [BN.act_one hB hdn hZ q1 hx, h0]
        simp
      rw [e]
      exact (Classical.choose_spec (exists_max hne (fun x => N'.bn.act d Z z x h1))).2 x hx
    · refine BN.best_cross hB hB' hgB hdB hdn hZ hx hpd (hcross z) ?_ (hmax z x hx)
      exact lt_of_le_of_ne (BN.act_nonneg hB hdn hZ hx z (fun _ => by norm_num)) (Ne.symm h0)
  have hτ : N.bn.IsRule d (fun a => if a d = φ a then 1 else 0) := BN.isRule_pure (hB.nodup d hdn) (fun q => BN.not_mem_parents hB hZ ((hZ d).2 q)) (fun a b hab => hφ a b (fun w hw => hab w ((hZ w).1 hw))) (fun z => hpickd _)
  obtain ⟨n, u1, o1, k1⟩ := realize1 hU hdn hτ
  have hτ' : N'.bn.IsRule d (fun a => if a d = φ a then 1 else 0) :=
    BN.isRule_pure (hB'.nodup d hdn') (fun q => BN.not_mem_parents hB' hZ' ((hZ' d).2 q)) (fun a b hab => hφ a b (fun w hw => hab w ((hZ' w).1 hw))) (fun z => by rw [hdB]; exact hpickd _)
  obtain ⟨n', u2, o2, k2⟩ := realize1 hU' hdn' hτ'
  have hin : ∀ a, N.InDom a → N'.InDom a := fun a ha => (hO.inDom a).2 ha
  refine ⟨n, n', u1, o1, u2, o2, fun a ha => by rw [k1 a ha, k2 a (hin a ha)], ?_, ?_⟩
  · refine bestRule_of hU u1 o1 (fun σ hσ => ?_) hdn
    refine BN.improve hB hdn hZ hZn (fun a => congrFun hsplit a) hupD hφ (fun z _ => hpickd _) (fun z _ x hx => ?_) hσ
      (isRule_only hdn o1 u1.good u1.normalised) k1
    show _ ≤ N.bn.act d Z z (pick (cut z)) h1
    rw [← hact, ← hact N z (pick _)]
    exact hmax (cut z) x hx
  · refine bestRule_of hU' u2 o2 (fun σ hσ => ?_) hdn'
    rw [hut]
    refine BN.improve hB' hdn' hZ' hZn (fun a => congrFun hsplit a) (by rw [hgB]; exact hupD) hφ (fun z _ => by rw [hdB]; exact hpickd _) (fun z _ x hx => ?_) hσ
      (isRule_only hdn' o2 u2.good u2.normalised) k2
    show _ ≤ N'.bn.act d Z z (pick (cut z)) h1
    rw [← hact, ← hact N' z (pick _)]
    exact hmax' (cut z) x (by rw [hdB] at hx; exact hx)

end Net
end Verif

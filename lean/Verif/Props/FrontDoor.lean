import Verif.Spec.FrontDoor
import Verif.Props.Calculus
import Verif.Props.Backdoor
import Verif.Lemmas.Build

/-!
# C122: the front-door adjustment
-/

namespace Verif
open Net Graph Relation Macid

/-- The law of total probability over one variable. -/
theorem PDo_values {net : Net} (hG : net.Good) {int : List (Node × Outcome)} (hin : ∀ p ∈ int, p.1 ∈ net.g.nodes) {m : Node}
    (hm : m ∈ net.g.nodes) (E : Assign → Bool) :
    net.PDo int E = ((net.dom m).map (fun μ => net.PDo int (fun a => E a && Ctx [(m, μ)] a))).sum := by
  rw [PDo_eq_W hin]
  simp only [PDo_eq_W hin]
  rw [← BN.W_sum]
  apply BN.W_congr
  intro a ha
  refine ((sum_indicator_mul (dom_props hG hm).1 (ha m hm) (fun _ => if E a = true then (1 : Rat) else 0)).symm.trans ?_)
  refine congrArg List.sum (List.map_congr_left (fun μ _ => ?_))
  by_cases e : μ = a m
  · subst e
    simp [Ctx]
  · rw [if_neg e, if_neg]
    simp [Ctx, Ne.symm e]

theorem PDo_swap {net : Net} {int int' : List (Node × Outcome)} (hp : int.Perm int') (E : Assign → Bool) : net.PDo int E = net.PDo int' E := by
  unfold PDo
  have e1 : ∀ a : Assign, (∀ p ∈ int, a p.1 = p.2) ↔ ∀ p ∈ int', a p.1 = p.2 := fun a => forall_congr' (fun p => by rw [hp.mem_iff])
  have e2 : ∀ v, v ∈ int.map (·.1) ↔ v ∈ int'.map (·.1) := fun v => (hp.map _).mem_iff
  simp only [e1, e2]

/-- Without observations, a CPD only reaches the descendants of its variable. -/
theorem mechConn_desc {net : Net} (hw : net.g.WF) {I : List Node} {x y : Node} (hx : x ∈ net.g.nodes) (hy : y ∈ net.g.nodes)
    (hI : I ⊆ net.g.nodes) (hxI : x ∉ I) (h : net.MechConn I [] x y) : (CutGraph net.g I).DescEq x y := by
  rw [(C117_rule3_graph hw hx hy hI (Z := []) (by simp) hxI (by simp)).2 (by simp), List.nil_append,
    ← ball_iff_dconn (cutGraph_wf hw _)] at h
  obtain ⟨-, d, hb⟩ := h
  have key : (d = .up → y = x) ∧ (CutGraph net.g I).DescEq x y := by
    clear hy
    induction hb with
    | init h => exact ⟨fun _ => h.1, by rw [h.1]; exact .refl⟩
    | upPar _ _ he ih =>
      have := (mem_cutGraph.1 he).2
      exact absurd (by rw [ih.1 rfl]; simp) this
    | upCh _ _ he ih =>
      refine ⟨by simp, ih.2.tail (mem_cutGraph.2 ⟨(mem_cutGraph.1 he).1, fun q => (mem_cutGraph.1 he).2 (by simp [q])⟩)⟩
    | downCh _ _ he ih =>
      refine ⟨by simp, ih.2.tail (mem_cutGraph.2 ⟨(mem_cutGraph.1 he).1, fun q => (mem_cutGraph.1 he).2 (by simp [q])⟩)⟩
    | downPar _ ha he _ =>
      obtain ⟨z, hz, hd⟩ := ha
      rename_i v p _ _
      have hv : v ∉ x :: I := (mem_cutGraph.1 he).2
      rcases Relation.ReflTransGen.cases_tail hd with e | ⟨c, -, hc⟩
      · exact absurd (by rw [← e]; simp [hz]) hv
      · exact absurd (by simp [hz]) (mem_cutGraph.1 hc).2
  exact key.2

/-- If no back-door trail leads from `x` to `m` then `m` is not an ancestor of `x`. -/
theorem not_ancestor {net : Net} (hw : net.g.WF) {x m : Node} (h : ¬ Reached (Mute net.g x) [] [x] m) : ¬ net.g.DescEq m x := by
  intro hd
  apply h
  refine ⟨by simp, .up, ?_⟩
  clear h
  induction hd using Relation.ReflTransGen.head_induction_on with
  | refl => exact .init ⟨by simp, rfl⟩
  | head he hr ih =>
    rename_i u c
    refine .upPar ih (by simp) (mute_edge.2 ⟨he, ?_⟩)
    rintro rfl
    exact hw.acyclic u (Relation.TransGen.head' he hr)

/-- a node separated from `x` by the back-door check is separated in every graph without the edges leaving `x` and with fewer edges otherwise -/
theorem silent_sep {net : Net} (hw : net.g.WF) {I Z : List Node} {x y : Node} (h : ¬ Reached (Mute net.g x) Z [x] y) :
    ¬ (Silent (CutGraph net.g I) x).DConn x y Z := by
  intro hd
  have hw' : (Silent (CutGraph net.g I) x).WF := mute_wf (cutGraph_wf hw I) x
  obtain ⟨h0, d, hb⟩ := (ball_iff_dconn hw').2 hd
  refine h (Reached.mono (g := Mute net.g x) (g' := Silent (CutGraph net.g I) x) (fun u v he => ?_) ⟨h0, d, ball_union.2 ⟨x, by simp, hb⟩⟩)
  have he' : (Mute (CutGraph net.g I) x).Edge u v := he
  rw [mute_edge] at he' ⊢
  exact ⟨(mem_cutGraph.1 he'.1).1, he'.2⟩

/-- **C122** The front-door adjustment.  The nodes `x`, `m` and `y` are different; every directed path from `x` to `y` goes through `m` (without
the edges into `m`, `y` is not a descendant of `x`); the package finds no active back-door trail from `x` to `m`, and none from `m` to `y` when `x`
is observed.  Then the effect on `y` of setting `x` is computed from the observational distribution of `x`, `m` and `y` alone, although `x` and `y`
may have common causes: P(y | do(x)) = Σ_m P(m | x) Σ_x' P(y | x', m) P(x').  The possible values of `x` must occur with the values `m` takes. -/
theorem C122_front_door {net : Net} (hU : net.Usable) {so : SetOrder} (ho : so.Valid) {x m y : Node} (hf : FrontDoor so net x m y) {v : Outcome}
    (hi : net.IntOk [(x, v)]) (ht : net.Tame m) (hpos : net.P (Ctx [(x, v)]) ≠ 0)
    (hpos' : ∀ v' μ, net.P (Ctx [(x, v')]) ≠ 0 → net.P (Ctx [(x, v), (m, μ)]) ≠ 0 → net.P (Ctx [(x, v'), (m, μ)]) ≠ 0) (w : Outcome) :
    net.PDo [(x, v)] (Ctx [(y, w)]) = net.frontDoor x m y v w := by
  obtain ⟨⟨-, hm, hy⟩, ⟨hmx, hyx, hym⟩, h3, h1, h2⟩ := hf
  unfold frontDoor
  have hG := hU.good
  have hN := hU.normalised
  have hw := hG.wf
  obtain ⟨hx, hv, hxt⟩ := hi.2 (x, v) (by simp)
  have hin : ∀ p ∈ [(x, v)], p.1 ∈ net.g.nodes := fun p hp => (hi.2 p hp).1
  have s1 := trail_separated hw ho hx hm (by simp) (by simp) hmx h1
  have s2 := trail_separated hw ho hm hy (by simpa using hx) (by simpa using hmx) hym h2
  have hdo1 : net.PDo [(x, v)] (Ctx []) = 1 := PDo_do_pos hU hi
  have hP : ∀ E, net.PDo [] E = net.P E := fun E => PDo_nil net E
  obtain ⟨-, b1⟩ := C117_rule2 hG hN (int := []) (ctx := []) hi (by simp) (by simp) (q := [m])
    (by intro z hz; rw [List.mem_singleton.1 hz]; exact ⟨hm, hmx, silent_sep hw s1⟩) (by rw [hP]; exact hpos)
  rw [PDo_values hG hin hm]
  refine congrArg List.sum (List.map_congr_left (fun μ hμ => ?_))
  -- the mediator
  have bμ : net.PDo [(x, v)] (Ctx [(m, μ)]) = net.P (Ctx [(x, v), (m, μ)]) / net.P (Ctx [(x, v)]) := by
    have := b1 [μ]
    unfold Given at this
    rw [hdo1, div_one, hP, hP] at this
    rw [show net.PDo [(x, v)] (Ctx [(m, μ)]) = net.PDo [(x, v)] (fun a => Has [m] [μ] a && Ctx [] a) from
      PDo_congr (fun a _ _ => by simp [Ctx, Has]), ← this]
    congr 2
    funext a
    simp [Ctx, Has, Bool.and_comm]
  by_cases h0 : net.P (Ctx [(x, v), (m, μ)]) = 0
  · rw [h0, zero_div, zero_mul]
    by_contra hne
    refine PDo_mono hG hN hi (E := fun a => Ctx [(y, w)] a && Ctx [(m, μ)] a) (F := Ctx [(m, μ)]) ?_ hne (by rw [bμ, h0, zero_div])
    intro a ha
    exact (Bool.and_eq_true _ _ ▸ ha).2
  · have hmpos : net.PDo [(x, v)] (Ctx [(m, μ)]) ≠ 0 := by rw [bμ]; exact div_ne_zero h0 hpos
    have hi2 : net.IntOk [(m, μ), (x, v)] := ⟨by simpa using hmx, by
      intro p hp
      simp only [List.mem_cons, List.not_mem_nil, or_false] at hp
      rcases hp with rfl | rfl
      · exact ⟨hm, hμ, ht⟩
      · exact ⟨hx, hv, hxt⟩⟩
    have hi3 : net.IntOk [(x, v), (m, μ)] := ⟨by simpa using Ne.symm hmx, fun p hp => hi2.2 p (by simp only [List.mem_cons, List.not_mem_nil, or_false] at hp ⊢; exact hp.symm)⟩
    have him : net.IntOk [(m, μ)] := ⟨by simp, fun p hp => hi2.2 p (by simp at hp; simp [hp])⟩
    obtain ⟨-, c1⟩ := C117_rule2 hG hN (int := [(x, v)]) (ctx := []) hi2 (by simp) (by simp) (q := [y])
      (by intro z hz; rw [List.mem_singleton.1 hz]; exact ⟨hy, hym, silent_sep hw s2⟩) hmpos
    have d1 := C117_rule3 hG hN (int := [(m, μ)]) (ctx := []) hi3 (by simp) (q := [y])
      (by intro z hz; rw [List.mem_singleton.1 hz]
          exact ⟨hy, fun q => h3 (mechConn_desc hw hx hy (by simpa using hm) (by simpa using Ne.symm hmx) q)⟩)
      (by rw [PDo_do_pos hU him]; exact one_ne_zero) (by rw [PDo_do_pos hU hi3]; exact one_ne_zero) [w]
    have c2 := c1 [w]
    unfold Given at c2 d1
    rw [PDo_do_pos hU hi2, div_one, PDo_swap (List.Perm.swap (x, v) (m, μ) [])] at c2
    rw [PDo_do_pos hU hi3, PDo_do_pos hU him, div_one, div_one] at d1
    have e : net.PDo [(x, v)] (fun a => Ctx [(y, w)] a && Ctx [(m, μ)] a) =
        net.PDo [(m, μ)] (fun a => Has [y] [w] a && Ctx [] a) * net.PDo [(x, v)] (Ctx [(m, μ)]) := by
      rw [← d1, ← c2, div_mul_cancel₀ _ hmpos]
      exact PDo_congr (fun a _ _ => by simp [Ctx, Has])
    rw [e, bμ, mul_comm]
    congr 1
    have hasx : ∀ u, Has [x] [u] = Ctx [(x, u)] := fun u => by funext a; simp [Has, Ctx]
    have hasxm : ∀ u, (fun a => decide (a m = μ) && Has [x] [u] a) = Ctx [(x, u), (m, μ)] := fun u => by funext a; simp [Has, Ctx, Bool.and_comm]
    have hasy : ∀ u, (fun a => decide (∀ y' ∈ [y], a y' = w) && (decide (a m = μ) && Has [x] [u] a)) = Ctx [(x, u), (m, μ), (y, w)] := fun u => by
      funext a
      simp [Has, Ctx, Bool.and_comm, Bool.and_assoc]
    have hnd := not_ancestor hw s1
    have key := C95_adjustment hG hN ho hm hμ (Z := [x]) (ys := [y]) (by intro z hz; rw [List.mem_singleton.1 hz]; exact ⟨hx, hnd⟩)
      (by intro z hz; rw [List.mem_singleton.1 hz]; exact ⟨hy, hym, h2⟩) (fun _ => w) (by
        intro zs hzs
        obtain ⟨b, hb⟩ : ∃ b : Assign, Has [x] zs b = true := by
          by_contra hne
          apply hzs
          rw [← PDo_nil, PDo_congr (F := fun _ => false) (fun a _ _ => by by_contra q; exact hne ⟨a, by simpa using q⟩)]
          unfold PDo
          simp only [Bool.false_eq_true, false_and, if_false]
          exact sumOver_zero _ _
        have hb' : zs = [b x] := by simpa [Has, eq_comm] using hb
        subst hb'
        have := hpos' (b x) μ (by rw [← hasx]; exact hzs) h0
        rwa [hasxm])
    rw [show net.PDo [(m, μ)] (fun a => Has [y] [w] a && Ctx [] a) = net.PDo [(m, μ)] (fun a => decide (∀ y_1 ∈ [y], a y_1 = w)) from
      PDo_congr (fun a _ _ => by simp [Ctx, Has]), key]
    have hprod : product ([x].map net.dom) = (net.dom x).map (fun u => [u]) := by
      simp only [List.map_cons, List.map_nil, product]
      exact (List.map_eq_flatMap ..).symm
    rw [hprod, List.map_map]
    refine congrArg List.sum (List.map_congr_left (fun u _ => ?_))
    simp only [Function.comp]
    rw [hasxm, hasy, hasx]

theorem PDo_in {net : Net} {int : List (Node × Outcome)} {E : Assign → Bool} (h : net.PDo int E ≠ 0) : ∃ a, net.InDom a ∧ E a = true := by
  by_contra hne
  apply h
  rw [PDo_congr (F := fun _ => false) (fun a ha _ => by by_contra q; exact hne ⟨a, ha, by simpa using q⟩)]
  unfold PDo
  simp only [Bool.false_eq_true, false_and, if_false]
  exact sumOver_zero _ _

theorem sum_sub_map {α : Type} (l : List α) (f h : α → Rat) : (l.map f).sum - (l.map h).sum = (l.map (fun i => f i - h i)).sum := by
  induction l with
  | nil => simp
  | cons i l ih => simp only [List.map_cons, List.sum_cons]; rw [← ih]; ring

/-- **C122** The same for the answers of the package: the answer to `query([y], {}, {x: v})` is computed from the answers to queries without
interventions. -/
theorem C122_answers {net : Net} (hU : net.Usable) {so : SetOrder} (ho : so.Valid) {x m y : Node} (hf : FrontDoor so net x m y) {v : Outcome}
    (hi : net.IntOk [(x, v)]) (ht : net.Tame m) (hpos : ∀ v' ∈ net.dom x, ∀ μ ∈ net.dom m, net.P (Ctx [(x, v'), (m, μ)]) ≠ 0)
    {pick pm px py : Pick} {ord : List Node → List Node} (hord : ∀ l, (ord l).Perm l) {f fm fx : Factor} {fy : Outcome → Outcome → Factor}
    (ha : (net.query pick ord [y] [] [(x, v)]).2 = .ok f) (hm : (net.query pm ord [m] [(x, v)] []).2 = .ok fm)
    (hx : (net.query px ord [x] [] []).2 = .ok fx)
    (hy : ∀ v' ∈ net.dom x, ∀ μ ∈ net.dom m, (net.query py ord [y] [(x, v'), (m, μ)] []).2 = .ok (fy v' μ)) {a : Assign} (hd : net.InDom a) :
    ∃ (p : Rat) (pm px : Outcome → Rat) (py : Outcome → Outcome → Rat), f.entry a = some p ∧
      (∀ μ ∈ net.dom m, fm.entry (a.upd m μ) = some (pm μ)) ∧ (∀ v' ∈ net.dom x, fx.entry (a.upd x v') = some (px v')) ∧
      (∀ v' ∈ net.dom x, ∀ μ ∈ net.dom m, (fy v' μ).entry a = some (py v' μ)) ∧
      p = ((net.dom m).map (fun μ => pm μ * ((net.dom x).map (fun v' => py v' μ * px v')).sum)).sum := by
  have hG := hU.good
  have hN := hU.normalised
  obtain ⟨hxn, hv, -⟩ := hi.2 (x, v) (by simp)
  have hmn := hf.nodes.2.1
  have h0 : net.IntOk [] := ⟨by simp, by simp⟩
  have hP : ∀ E, net.PDo [] E = net.P E := fun E => PDo_nil net E
  have hone : net.P (Ctx []) ≠ 0 := by rw [← hP, PDo_do_pos hU h0]; exact one_ne_zero
  have hvpos : net.P (Ctx [(x, v)]) ≠ 0 := by
    obtain ⟨μ, hμ⟩ := List.exists_mem_of_ne_nil _ (dom_props hG hmn).2
    rw [← hP]
    refine PDo_mono hG hN h0 (E := Ctx [(x, v), (m, μ)]) (fun b hb => ?_) (by rw [hP]; exact hpos v hv μ hμ)
    simp only [Ctx, List.all_cons, List.all_nil, Bool.and_true, Bool.and_eq_true] at hb ⊢
    exact hb.1
  have hupd : ∀ z ∈ net.g.nodes, ∀ u ∈ net.dom z, net.InDom (a.upd z u) := fun z _ u hu t htn => by
    unfold Assign.upd
    split
    · next e => rw [e]; exact hu
    · exact hd t htn
  have zero_of : ∀ v' μ, net.P (Ctx [(x, v')]) ≠ 0 → net.P (Ctx [(x, v), (m, μ)]) ≠ 0 → net.P (Ctx [(x, v'), (m, μ)]) ≠ 0 := by
    intro v' μ h1 h2
    obtain ⟨b, hb, e⟩ := PDo_in (hP _ ▸ h1)
    obtain ⟨c, hc, e'⟩ := PDo_in (hP _ ▸ h2)
    simp only [Ctx, List.all_cons, List.all_nil, Bool.and_true, Bool.and_eq_true, decide_eq_true_eq] at e e'
    exact hpos v' (e ▸ hb x hxn) μ (e'.2 ▸ hc m hmn)
  have key := C122_front_door hU ho hf hi ht hvpos zero_of (a y)
  refine ⟨_, fun μ => net.P (Ctx [(x, v), (m, μ)]) / net.P (Ctx [(x, v)]), fun v' => net.P (Ctx [(x, v')]),
    fun v' μ => net.P (Ctx [(x, v'), (m, μ), (y, a y)]) / net.P (Ctx [(x, v'), (m, μ)]), entry_given hU hord hi ha (by rw [PDo_do_pos hU hi]; exact one_ne_zero) hd,
    fun μ hμ => ?_, fun v' hv' => ?_, fun v' hv' μ hμ => ?_, ?_⟩
  · rw [entry_given hU hord h0 hm (by rw [hP]; exact hvpos) (hupd m hmn μ hμ)]
    unfold Given
    rw [hP, hP]
    congr 3
    funext b
    simp [Has, Ctx, Assign.upd, Bool.and_comm]
  · rw [entry_given hU hord h0 hx (by rw [hP]; exact hone) (hupd x hxn v' hv')]
    unfold Given
    rw [PDo_do_pos hU h0, div_one, hP]
    congr 2
    funext b
    simp [Has, Ctx, Assign.upd]
  · rw [entry_given hU hord h0 (hy v' hv' μ hμ) (by rw [hP]; exact hpos v' hv' μ hμ) hd]
    unfold Given
    rw [hP, hP]
    congr 3
    funext b
    simp [Has, Ctx, Bool.and_comm, Bool.and_assoc]
  · unfold Given
    rw [PDo_do_pos hU hi, div_one]
    refine Eq.trans ?_ key
    exact PDo_congr (fun b _ _ => by simp [Ctx, Has])

/-- **C122** The effect is identified: whatever the hidden variables are, two networks with the front-door property that agree on the joint
distribution of `x`, `m` and `y` agree on the effect of `x` on `y`. -/
theorem C122_identified {net net' : Net} (hU : net.Usable) (hU' : net'.Usable) {so : SetOrder} (ho : so.Valid) {x m y : Node}
    (hf : FrontDoor so net x m y) (hf' : FrontDoor so net' x m y) (hdom : ∀ z ∈ [x, m, y], net'.dom z = net.dom z)
    (hsame : ∀ v μ w, net'.P (Ctx [(x, v), (m, μ), (y, w)]) = net.P (Ctx [(x, v), (m, μ), (y, w)])) {v : Outcome}
    (hi : net.IntOk [(x, v)]) (hi' : net'.IntOk [(x, v)]) (ht : net.Tame m) (ht' : net'.Tame m) (hpos : net.P (Ctx [(x, v)]) ≠ 0)
    (hpos' : ∀ v' μ, net.P (Ctx [(x, v')]) ≠ 0 → net.P (Ctx [(x, v), (m, μ)]) ≠ 0 → net.P (Ctx [(x, v'), (m, μ)]) ≠ 0) (w : Outcome) :
    net'.PDo [(x, v)] (Ctx [(y, w)]) = net.PDo [(x, v)] (Ctx [(y, w)]) := by
  have two : ∀ n : Net, n.Usable → FrontDoor so n x m y → ∀ v μ,
      n.P (Ctx [(x, v), (m, μ)]) = ((n.dom y).map (fun w => n.P (Ctx [(x, v), (m, μ), (y, w)]))).sum := fun n hn hfn v μ => by
    rw [← PDo_nil, PDo_values hn.good (by simp) hfn.nodes.2.2]
    refine congrArg List.sum (List.map_congr_left (fun w _ => ?_))
    rw [PDo_nil]
    congr 1
    funext b
    simp [Ctx, Bool.and_assoc]
  have one : ∀ n : Net, n.Usable → FrontDoor so n x m y → ∀ v,
      n.P (Ctx [(x, v)]) = ((n.dom m).map (fun μ => n.P (Ctx [(x, v), (m, μ)]))).sum := fun n hn hfn v => by
    rw [← PDo_nil, PDo_values hn.good (by simp) hfn.nodes.2.1]
    refine congrArg List.sum (List.map_congr_left (fun w _ => ?_))
    rw [PDo_nil]
    congr 1
    funext b
    simp [Ctx]
  have e2 : ∀ v μ, net'.P (Ctx [(x, v), (m, μ)]) = net.P (Ctx [(x, v), (m, μ)]) := fun v μ => by
    rw [two net' hU' hf', two net hU hf, hdom y (by simp)]
    simp only [hsame]
  have e1 : ∀ v, net'.P (Ctx [(x, v)]) = net.P (Ctx [(x, v)]) := fun v => by
    rw [one net' hU' hf', one net hU hf, hdom m (by simp)]
    simp only [e2]
  rw [C122_front_door hU ho hf hi ht hpos hpos', C122_front_door hU' ho hf' hi' ht' (by rw [e1]; exact hpos)
    (fun v' μ => by rw [e1, e2, e2]; exact hpos' v' μ)]
  unfold frontDoor
  rw [hdom x (by simp), hdom m (by simp)]
  simp only [e1, e2, hsame]

/-- **C122** `total_effect` between variables with a front door. -/
theorem C122_total_effect {net : Net} (hU : net.Usable) {so : SetOrder} (ho : so.Valid) {x m y : Node} (hf : FrontDoor so net x m y)
    {v0 v1 : Outcome} (h0 : net.IntOk [(x, v0)]) (h1 : net.IntOk [(x, v1)]) (ht : net.Tame m)
    (hpos : ∀ v' ∈ net.dom x, net.P (Ctx [(x, v')]) ≠ 0)
    (hpos' : ∀ v v' μ, net.P (Ctx [(x, v')]) ≠ 0 → net.P (Ctx [(x, v), (m, μ)]) ≠ 0 → net.P (Ctx [(x, v'), (m, μ)]) ≠ 0)
    {pick : Pick} {ord : List Node → List Node} (hord : ∀ l, (ord l).Perm l) {r : Rat} (hr : (net.totalEffect pick ord x y v0 v1).2 = .ok r) :
    r = ((net.dom y).map (fun w => w * (net.frontDoor x m y v1 w - net.frontDoor x m y v0 w))).sum := by
  have hm : ∀ v, net.IntOk [(x, v)] → net.Mean [(x, v)] [] y = ((net.dom y).map (fun w => w * net.frontDoor x m y v w)).sum := fun v hv => by
    unfold Mean
    rw [PDo_do_pos hU hv]
    refine congrArg List.sum (List.map_congr_left (fun w _ => ?_))
    rw [← C122_front_door hU ho hf hv ht (hpos v (hv.2 (x, v) (by simp)).2.1) (hpos' v), div_one]
    rw [show net.PDo [(x, v)] (fun b => decide (b y = w) && Ctx [] b) = net.PDo [(x, v)] (Ctx [(y, w)]) from
      PDo_congr (fun b _ _ => by simp [Ctx])]
  rw [((C44_total_effect_exact hU hord h0 h1).2 r hr).1, hm v1 h1, hm v0 h0, sum_sub_map]
  refine congrArg List.sum (List.map_congr_left (fun w _ => ?_))
  ring

namespace ExFd

/-- `H` is a hidden cause of `X` and `Y`; the effect of `X` on `Y` goes through `M` -/
def edges : List (Node × Node) := [("H", "X"), ("X", "M"), ("H", "Y"), ("M", "Y")]
def m : Macid := ⟨⟨["H", "X", "M", "Y"], edges⟩, [], [], [], []⟩
def coin : Rel := .dist [(0, some (1 / 2)), (1, some (1 / 2))]
/-- 1 with probability 3/4 if `p` is 1, with probability 1/4 otherwise -/
def noisy (p : Node) : Func := fun pv =>
  .ok (.dist (if pv p = some 1 then [(0, some (1 / 4)), (1, some (3 / 4))] else [(0, some (3 / 4)), (1, some (1 / 4))]))
/-- `Y` is likely if both `M` and `H` are 1, possible if one of them is -/
def out : Func := fun pv =>
  .ok (.dist (if pv "M" = some 1 ∧ pv "H" = some 1 then [(0, some 0), (1, some 1)] else
    if pv "M" = some 1 ∨ pv "H" = some 1 then [(0, some (1 / 2)), (1, some (1 / 2))] else [(0, some 1), (1, some 0)]))
def rels : List (Node × Rel) := [("H", coin), ("X", .func (noisy "H")), ("M", .func (noisy "X")), ("Y", .func out)]
def net : Net := ((Net.mk m [] [] [] Macid.new).addCpds rels).1

theorem usable : net.Usable ∧ net.m = m :=
  usable_of_build (edges := edges) (ad := []) (au := []) (rels := rels) (by decide +kernel)
    (by rw [← show ((Net.mk m [] [] [] Macid.new).addCpds rels).2 = .ok () by decide +kernel]; rfl) (by
      intro p hp
      simp only [rels, List.mem_cons, List.not_mem_nil, or_false] at hp
      rcases hp with rfl | rfl | rfl | rfl
      · trivial
      · intro pv; simp [noisy]
      · intro pv; simp [noisy]
      · intro pv; simp [out]) (by decide +kernel)

theorem door : FrontDoor SetOrder.id net "X" "M" "Y" := by
  have hg : net.g = m.g := by show net.m.g = _; rw [usable.2]
  refine ⟨by rw [hg]; decide, by decide, ?_, by rw [hg]; decide +kernel, by rw [hg]; decide +kernel⟩
  rw [hg]
  intro h
  rcases ReflTransGen.cases_head h with h | ⟨c, hc, -⟩
  · simp at h
  · have : ∀ c ∈ m.g.nodes, ¬ (("X", c) ∈ (CutGraph m.g ["M"]).edges) := by decide
    exact this c (hg ▸ (usable.1.good.wf.edgeNodes "X" c (hg ▸ (mem_cutGraph.1 hc).1)).2) hc

end ExFd

/-- **C122** The hypotheses are met by a network in which a hidden variable confounds `X` and `Y`: observing `X = 1` makes `Y = 1` have probability
3/4, setting it makes that 5/8, and the formula computes 5/8 from what is observed. -/
theorem C122_example : ExFd.net.Usable ∧ FrontDoor SetOrder.id ExFd.net "X" "M" "Y" ∧ ExFd.net.IntOk [("X", 1)] ∧ ExFd.net.Tame "M" ∧
    ExFd.net.P (Ctx [("X", 1)]) = 1 / 2 ∧ (∀ v ∈ ExFd.net.dom "X", ∀ μ ∈ ExFd.net.dom "M", ExFd.net.P (Ctx [("X", v), ("M", μ)]) ≠ 0) ∧
    ExFd.net.P (Ctx [("X", 1), ("Y", 1)]) / ExFd.net.P (Ctx [("X", 1)]) = 3 / 4 ∧
    ExFd.net.PDo [("X", 1)] (Ctx [("Y", 1)]) = 5 / 8 ∧ ExFd.net.frontDoor "X" "M" "Y" 1 1 = 5 / 8 := by
  have ht : ∀ z ∈ ["X", "M"], ExFd.net.Tame z := by
    intro z hz
    left
    have : ∀ z ∈ ["X", "M"], (ExFd.net.dom z).Pairwise (· ≤ ·) := by decide +kernel
    exact this z hz
  refine ⟨ExFd.usable.1, ExFd.door, ⟨by simp, ?_⟩, ht "M" (by simp), by decide +kernel, by decide +kernel, by decide +kernel, by decide +kernel,
    by decide +kernel⟩
  intro p hp
  rw [List.mem_singleton.1 hp]
  exact ⟨by decide +kernel, by decide +kernel, ht "X" (by simp)⟩

end Verif

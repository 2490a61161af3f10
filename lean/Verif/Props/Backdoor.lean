import Verif.Lemmas.Backdoor
import Verif.Lemmas.Signals
import Verif.Props.Value
import Verif.Props.Paths

/-!
# Property C95: what an active back-door trail means
-/

namespace Verif

open Graph Relation Macid Net

/-! ## C95 -/

theorem trail_separated {net : Net} (hw : net.g.WF) {so : SetOrder} (ho : so.Valid) {x y : Node} {Z : List Node} (hx : x ∈ net.g.nodes)
    (hy : y ∈ net.g.nodes) (hZ : Z ⊆ net.g.nodes) (hxZ : x ∉ Z) (hxy : y ≠ x) (h : isActiveBackdoorTrail so net.g x y Z = .ok false) :
    ¬ Reached (Mute net.g x) Z [x] y := by
  intro hr
  have hyZ : y ∉ Z := hr.1
  have hd : (Mute net.g x).DConn x y Z := by
    rw [← ball_iff_dconn (mute_wf hw x)]
    refine ⟨hyZ, ?_⟩
    obtain ⟨d, hb⟩ := hr.2
    obtain ⟨s, hs, hb⟩ := ball_union.1 hb
    rw [List.mem_singleton.1 hs] at hb
    exact ⟨d, hb⟩
  obtain ⟨v, e1, e2⟩ := (C11_is_active_backdoor_trail net.g hw so ho x y Z).1 (by
    intro n hn
    simp only [List.mem_append, List.mem_cons, List.not_mem_nil, or_false] at hn
    rcases hn with hn | rfl | rfl
    · exact hZ hn
    · exact hx
    · exact hy)
  rw [h] at e1
  cases e1
  exact absurd (e2.2 ((backdoor_iff hw hxZ hyZ (Ne.symm hxy)).2 hd)) (by simp)

/-- **C95** If `is_active_backdoor_trail(x, y, Z)` is False for all `y` in `ys`, then seeing that `x` is `vx` and setting `x` to `vx` tell the
same about `ys`: P(ys | x, Z) = P(ys | do(x), Z), written without division. -/
theorem C95_observe_do {net : Net} (hG : net.Good) (hN : net.Normalised) {so : SetOrder} (ho : so.Valid) {x : Node} {vx : Outcome}
    (hx : x ∈ net.g.nodes) (hv : vx ∈ net.dom x) {Z ys : List Node} (hZ : Z ⊆ net.g.nodes) (hxZ : x ∉ Z)
    (hy : ∀ y ∈ ys, y ∈ net.g.nodes ∧ y ≠ x ∧ isActiveBackdoorTrail so net.g x y Z = .ok false) (vy vz : Assign) :
    net.P (fun a => decide (a x = vx ∧ (∀ y ∈ ys, a y = vy y) ∧ ∀ z ∈ Z, a z = vz z)) *
        net.PDo [(x, vx)] (fun a => decide (∀ z ∈ Z, a z = vz z)) =
      net.P (fun a => decide (a x = vx ∧ ∀ z ∈ Z, a z = vz z)) *
        net.PDo [(x, vx)] (fun a => decide ((∀ y ∈ ys, a y = vy y) ∧ ∀ z ∈ Z, a z = vz z)) := by
  have hin : ∀ p ∈ [(x, vx)], p.1 ∈ net.g.nodes := by simpa using hx
  have key := observe_do hG hN hx hv hZ hxZ (T := ys)
    (fun t ht => ⟨(hy t ht).1, (hy t ht).2.1, trail_separated hG.wf ho hx (hy t ht).1 hZ hxZ (hy t ht).2.1 (hy t ht).2.2⟩) vz
    (h := fun a => if ∀ y ∈ ys, a y = vy y then 1 else 0) (fun a b hab => by
      have : (∀ y ∈ ys, a y = vy y) ↔ ∀ y ∈ ys, b y = vy y := forall₂_congr (fun v hv => by rw [hab v (Or.inr hv)])
      simp only [this])
  rw [P_eq_W, P_eq_W, PDo_eq_W hin, PDo_eq_W hin]
  have e3 : ∀ (A B C : Prop) [Decidable A] [Decidable B] [Decidable C],
      (if decide (A ∧ B ∧ C) = true then (1 : Rat) else 0) = if A then (if C then (if B then 1 else 0) else 0) else 0 := by
    intro A B C _ _ _
    by_cases A <;> by_cases B <;> by_cases C <;> simp_all
  have e2 : ∀ (A C : Prop) [Decidable A] [Decidable C],
      (if decide (A ∧ C) = true then (1 : Rat) else 0) = if A then (if C then 1 else 0) else 0 := by
    intro A C _ _
    by_cases A <;> by_cases C <;> simp_all
  have e2' : ∀ (A C : Prop) [Decidable A] [Decidable C],
      (if decide (A ∧ C) = true then (1 : Rat) else 0) = if C then (if A then 1 else 0) else 0 := by
    intro A C _ _
    by_cases A <;> by_cases C <;> simp_all
  convert key using 3
  · funext a; exact e3 _ _ _
  · funext a; simp only [decide_eq_true_eq]; rfl
  · funext a; exact e2 _ _
  · funext a; exact e2' _ _

theorem ctx_iff {ctx : List (Node × Outcome)} {vz : Assign} (h : Ctx ctx vz = true) (b : Assign) :
    Ctx ctx b = true ↔ ∀ z ∈ ctx.map (·.1), b z = vz z := by
  simp only [Ctx, List.all_eq_true, decide_eq_true_eq, List.mem_map] at h ⊢
  constructor
  · rintro k z ⟨p, hp, rfl⟩
    rw [k p hp, h p hp]
  · intro k p hp
    rw [k p.1 ⟨p, hp, rfl⟩, h p hp]

theorem ctx_possible {net : Net} {ctx : List (Node × Outcome)} (h : net.P (Ctx ctx) ≠ 0) : ∃ vz, Ctx ctx vz = true := by
  by_contra hne
  push Not at hne
  apply h
  rw [P_eq_W]
  have : (fun a => if Ctx ctx a = true then (1 : Rat) else 0) = fun _ => 0 * 1 := by
    funext a
    rw [if_neg (hne a), zero_mul]
  rw [this, BN.W_mul_const, zero_mul]

/-- conditional expectations given that `x` is `vx` and after setting `x` to `vx` -/
theorem observe_do_div {net : Net} (hU : net.Usable) {so : SetOrder} (ho : so.Valid) {x : Node} {vx : Outcome}
    (hx : x ∈ net.g.nodes) (hv : vx ∈ net.dom x) {ctx : List (Node × Outcome)} (hZ : ∀ p ∈ ctx, p.1 ∈ net.g.nodes)
    (hxZ : x ∉ ctx.map (·.1)) {ys : List Node}
    (hy : ∀ y ∈ ys, y ∈ net.g.nodes ∧ y ≠ x ∧ isActiveBackdoorTrail so net.g x y (ctx.map (·.1)) = .ok false)
    (hpos : net.P (Ctx ((x, vx) :: ctx)) ≠ 0) :
    net.PDo [(x, vx)] (Ctx ctx) ≠ 0 ∧ ∀ E : Assign → Bool, (∀ a b, (∀ y ∈ ys, a y = b y) → E a = E b) →
      net.P (fun a => E a && Ctx ((x, vx) :: ctx) a) / net.P (Ctx ((x, vx) :: ctx)) =
        net.PDo [(x, vx)] (fun a => E a && Ctx ctx a) / net.PDo [(x, vx)] (Ctx ctx) := by
  have hin : ∀ p ∈ [(x, vx)], p.1 ∈ net.g.nodes := by simpa using hx
  obtain ⟨vz, hvz⟩ := ctx_possible hpos
  have hvz' : Ctx ctx vz = true := by
    simp only [Ctx, List.all_cons, Bool.and_eq_true] at hvz ⊢
    exact hvz.2
  have hZs : ctx.map (·.1) ⊆ net.g.nodes := by
    intro z hz
    obtain ⟨p, hp, rfl⟩ := List.mem_map.1 hz
    exact hZ p hp
  have c1 : ∀ a, Ctx ((x, vx) :: ctx) a = true ↔ a x = vx ∧ ∀ z ∈ ctx.map (·.1), a z = vz z := fun a => by
    rw [← ctx_iff hvz' a]
    simp only [Ctx, List.all_cons, Bool.and_eq_true, decide_eq_true_eq]
  have w1 : ∀ E : Assign → Bool, net.P (fun a => E a && Ctx ((x, vx) :: ctx) a) =
      net.bn.W (fun a => if a x = vx then BN.at_ (ctx.map (·.1)) vz (fun a => if E a then 1 else 0) a else 0) := fun E => by
    rw [P_eq_W]
    congr 1
    funext a
    unfold BN.at_
    by_cases h1 : a x = vx
    · by_cases h2 : ∀ z ∈ ctx.map (·.1), a z = vz z
      · rw [if_pos h1, if_pos h2, (c1 a).2 ⟨h1, h2⟩, Bool.and_true]
      · rw [if_pos h1, if_neg h2, if_neg]
        rw [Bool.and_eq_true]
        exact fun h => h2 ((c1 a).1 h.2).2
    · rw [if_neg h1, if_neg]
      rw [Bool.and_eq_true]
      exact fun h => h1 ((c1 a).1 h.2).1
  have w2 : ∀ E : Assign → Bool, net.PDo [(x, vx)] (fun a => E a && Ctx ctx a) =
      (net.doBN [(x, vx)]).W (BN.at_ (ctx.map (·.1)) vz (fun a => if E a then 1 else 0)) := fun E => by
    rw [PDo_eq_W hin]
    congr 1
    funext a
    unfold BN.at_
    by_cases h2 : ∀ z ∈ ctx.map (·.1), a z = vz z
    · rw [if_pos h2, (ctx_iff hvz' a).2 h2, Bool.and_true]
    · rw [if_neg h2, if_neg]
      rw [Bool.and_eq_true]
      exact fun h => h2 ((ctx_iff hvz' a).1 h.2)
  have w1' := w1 (fun _ => true)
  have w2' := w2 (fun _ => true)
  simp only [Bool.true_and, if_true] at w1' w2'
  have p1 : 0 < net.P (Ctx ((x, vx) :: ctx)) := by
    refine lt_of_le_of_ne ?_ (Ne.symm hpos)
    rw [P_eq_W]
    exact BN.W_nonneg (bn_prob hU.good hU.normalised) (fun a _ => by split <;> norm_num)
  have p2 : net.PDo [(x, vx)] (Ctx ctx) ≠ 0 := by
    have hle := observe_le_do hU.good hU.normalised hx hv (f := BN.at_ (ctx.map (·.1)) vz (fun _ => 1))
      (fun a => by unfold BN.at_; split <;> norm_num) (fun a b hab => by
        have e1 : ∀ v ∈ ctx.map (·.1), a v = b v := fun v hv => hab v ⟨hZs hv, fun e => hxZ (e ▸ hv)⟩
        have e2 : (∀ v ∈ ctx.map (·.1), a v = vz v) ↔ ∀ v ∈ ctx.map (·.1), b v = vz v := forall₂_congr (fun v hv => by rw [e1 v hv])
        unfold BN.at_
        simp only [e2])
    have e1 : net.P (Ctx ((x, vx) :: ctx)) ≤ net.PDo [(x, vx)] (Ctx ctx) := by
      rw [show net.P (Ctx ((x, vx) :: ctx)) = _ from w1', show net.PDo [(x, vx)] (Ctx ctx) = _ from w2']
      exact hle
    exact ne_of_gt (lt_of_lt_of_le p1 e1)
  refine ⟨p2, fun E hE => ?_⟩
  have key := observe_do hU.good hU.normalised hx hv hZs hxZ (T := ys)
    (fun t ht => ⟨(hy t ht).1, (hy t ht).2.1, trail_separated hU.good.wf ho hx (hy t ht).1 hZs hxZ (hy t ht).2.1 (hy t ht).2.2⟩) vz
    (h := fun a => if E a then 1 else 0) (fun a b hab => by simp only [hE a b (fun y hy => hab y (Or.inr hy))])
  rw [div_eq_div_iff hpos p2, w1 E, w2 E, show net.P (Ctx ((x, vx) :: ctx)) = _ from w1', show net.PDo [(x, vx)] (Ctx ctx) = _ from w2', key]
  ring

/-- **C95** In terms of the API: if `is_active_backdoor_trail(x, y, context)` is False for all queried `y`, then
`query(q, {x: vx, **context})` and `query(q, context, intervention={x: vx})` return the same factor. -/
theorem C95_query {net : Net} (hU : net.Usable) {pick pick' : Pick} {ord : List Node → List Node} (hord : ∀ l, (ord l).Perm l) {so : SetOrder}
    (ho : so.Valid) {q : List Node} {ctx : List (Node × Outcome)} {x : Node} {vx : Outcome} (hi : net.IntOk [(x, vx)])
    (hxc : x ∉ ctx.map (·.1)) (hb : ∀ y ∈ q, isActiveBackdoorTrail so net.g x y (ctx.map (·.1)) = .ok false)
    (hpos : net.P (Ctx ((x, vx) :: ctx)) ≠ 0) {f f' : Factor} (hf : (net.query pick ord q ((x, vx) :: ctx) []).2 = .ok f)
    (hf' : (net.query pick' ord q ctx [(x, vx)]).2 = .ok f') : f = f' := by
  have hx := (hi.2 (x, vx) (by simp)).1
  have hv := (hi.2 (x, vx) (by simp)).2.1
  have hnil : net.IntOk [] := ⟨by simp, by simp⟩
  obtain ⟨k1, -, k3, k4, -⟩ := C38_answered_only_if_legal hU hord hnil hf
  have hq : ∀ y ∈ q, y ∈ net.g.nodes ∧ y ≠ x ∧ isActiveBackdoorTrail so net.g x y (ctx.map (·.1)) = .ok false := fun y hy =>
    ⟨k3 y hy, fun e => k4 y hy (by simp [e]), hb y hy⟩
  obtain ⟨p2, key⟩ := observe_do_div hU ho hx hv (fun p hp => (k1 p (by simp [hp])).1) hxc hq hpos
  obtain ⟨d1, -, d1', v1, -, s1, t1⟩ := C39_query_exact hU hord hnil hf (by rw [PDo_nil]; exact hpos)
  obtain ⟨d2, -, d2', v2, -, s2, t2⟩ := C39_query_exact hU hord hi hf' p2
  have hs : f.states = f'.states := by
    rw [s1, s2, v1, v2]
    apply List.map_congr_left
    intro v hv
    have hvq : v ∈ q := (hord q).mem_iff.1 hv
    rw [d1' v (k3 v hvq) (by simp), d2' v (k3 v hvq) (by simpa using (hq v hvq).2.1)]
  have ht : f.values = f'.values := by
    rw [t1, t2, hs, v1, v2]
    apply List.map_congr_left
    intro xs _
    rw [if_neg p2, PDo_nil, if_neg hpos, PDo_nil]
    congr 1
    refine key (Has (ord q) xs) (fun a b hab => ?_)
    unfold Has
    rw [List.map_congr_left (fun v hv => hab v ((hord q).mem_iff.1 hv))]
  cases f
  cases f'
  simp_all

/-- **C95** The same for expectations. -/
theorem C95_mean {net : Net} (hU : net.Usable) {so : SetOrder} (ho : so.Valid) {ctx : List (Node × Outcome)}
    (hc : ∀ p ∈ ctx, p.1 ∈ net.g.nodes) {x y : Node} {vx : Outcome} (hi : net.IntOk [(x, vx)]) (hxc : x ∉ ctx.map (·.1))
    (hy : y ∈ net.g.nodes) (hxy : y ≠ x) (hb : isActiveBackdoorTrail so net.g x y (ctx.map (·.1)) = .ok false)
    (hpos : net.P (Ctx ((x, vx) :: ctx)) ≠ 0) : net.Mean [] ((x, vx) :: ctx) y = net.Mean [(x, vx)] ctx y := by
  obtain ⟨-, key⟩ := observe_do_div hU ho (hi.2 (x, vx) (by simp)).1 (hi.2 (x, vx) (by simp)).2.1 hc hxc (ys := [y])
    (fun t ht => by rw [List.mem_singleton.1 ht]; exact ⟨hy, hxy, hb⟩) hpos
  unfold Mean
  refine congrArg List.sum (List.map_congr_left (fun v _ => ?_))
  rw [PDo_nil, PDo_nil, key (fun a => decide (a y = v)) (fun a b hab => by rw [hab y (by simp)])]

/-- **C95** Without an active back-door trail from `a` to `x`, `total_effect(a, x, a0, a1)` is the difference between the expectations of `x`
given the two values of `a`: association is causation. -/
theorem C95_total_effect {net : Net} (hU : net.Usable) {pick : Pick} {ord : List Node → List Node} (hord : ∀ l, (ord l).Perm l)
    {so : SetOrder} (ho : so.Valid) {a x : Node} {a0 a1 : Outcome} (h0 : net.IntOk [(a, a0)]) (h1 : net.IntOk [(a, a1)]) (hax : x ≠ a)
    (hb : isActiveBackdoorTrail so net.g a x [] = .ok false) (p0 : net.P (Ctx [(a, a0)]) ≠ 0) (p1 : net.P (Ctx [(a, a1)]) ≠ 0) {r : Rat}
    (hr : (net.totalEffect pick ord a x a0 a1).2 = .ok r) : r = net.Mean [] [(a, a1)] x - net.Mean [] [(a, a0)] x := by
  obtain ⟨e, hx⟩ := (C44_total_effect_exact hU hord h0 h1).2 r hr
  rw [e, C95_mean hU ho (ctx := []) (by simp) h1 (by simp) hx hax hb p1, C95_mean hU ho (ctx := []) (by simp) h0 (by simp) hx hax hb p0]

/-- **C95** The adjustment formula.  If `Z` contains no descendants of `x` and leaves no active back-door trail from `x` to `ys`, then
P(ys | do(x)) is the sum over the values of `Z` of P(ys | x, Z) P(Z). -/
theorem C95_adjustment {net : Net} (hG : net.Good) (hN : net.Normalised) {so : SetOrder} (ho : so.Valid) {x : Node} {vx : Outcome}
    (hx : x ∈ net.g.nodes) (hv : vx ∈ net.dom x) {Z ys : List Node} (hZ : ∀ z ∈ Z, z ∈ net.g.nodes ∧ ¬ net.g.DescEq x z)
    (hy : ∀ y ∈ ys, y ∈ net.g.nodes ∧ y ≠ x ∧ isActiveBackdoorTrail so net.g x y Z = .ok false) (vy : Assign)
    (hpos : ∀ zs, net.P (Has Z zs) ≠ 0 → net.P (fun a => decide (a x = vx) && Has Z zs a) ≠ 0) :
    net.PDo [(x, vx)] (fun a => decide (∀ y ∈ ys, a y = vy y)) =
      ((product (Z.map net.dom)).map (fun zs =>
        net.P (fun a => decide (∀ y ∈ ys, a y = vy y) && (decide (a x = vx) && Has Z zs a)) /
          net.P (fun a => decide (a x = vx) && Has Z zs a) * net.P (Has Z zs))).sum := by
  have hin : ∀ p ∈ [(x, vx)], p.1 ∈ net.g.nodes := by simpa using hx
  have hB := bn_prob hG hN
  have hD : (net.doBN [(x, vx)]).Prob := doBN_prob hG hN (by simp) (by simpa using hv)
  have hxZ : x ∉ Z := fun h => (hZ x h).2 .refl
  have e0 := W_product (net.doBN [(x, vx)]) net.dom (fun _ _ => .refl _) (fun v hv => (dom_props hG hv).1) (vars := Z)
    (fun z hz => (hZ z hz).1) (fun a => if ∀ y ∈ ys, a y = vy y then 1 else 0) (fun _ => 1)
  rw [PDo_eq_W hin]
  simp only [one_mul] at e0
  simp only [decide_eq_true_eq]
  rw [← e0]
  refine congrArg List.sum (List.map_congr_left (fun zs _ => ?_))
  have hdo : (net.doBN [(x, vx)]).W (fun a => if Has Z zs a then 1 else 0) = net.P (Has Z zs) := by
    rw [P_eq_W]
    refine W_do_nondesc hG hN hx hv (fun a b hab => ?_)
    have : Has Z zs a = Has Z zs b := by
      unfold Has
      rw [List.map_congr_left (fun z hz => hab z (hZ z hz))]
    simp only [this]
  by_cases h0 : net.P (Has Z zs) = 0
  · rw [h0, mul_zero]
    rw [h0] at hdo
    refine BN.W_zero hD (fun a _ => by split <;> norm_num) hdo (fun a _ h => ?_)
    rw [if_neg]
    intro e
    simp [Has, e] at h
  · obtain ⟨vz, hvz⟩ : ∃ vz : Assign, Z.map vz = zs := by
      by_contra hne
      push Not at hne
      apply h0
      rw [P_eq_W]
      have : (fun a => if Has Z zs a = true then (1 : Rat) else 0) = fun _ => 0 * 1 := by
        funext a
        simp [Has, hne a]
      rw [this, BN.W_mul_const, zero_mul]
    have hz : ∀ a : Assign, Z.map a = zs ↔ ∀ z ∈ Z, a z = vz z := fun a => by
      rw [← hvz]
      exact List.map_inj_left
    have key := C95_observe_do hG hN ho hx hv (fun z hz => (hZ z hz).1) hxZ hy vy vz
    have c1 : net.P (fun a => decide (∀ y ∈ ys, a y = vy y) && (decide (a x = vx) && Has Z zs a)) =
        net.P (fun a => decide (a x = vx ∧ (∀ y ∈ ys, a y = vy y) ∧ ∀ z ∈ Z, a z = vz z)) := by
      congr 1
      funext a
      simp only [Has, hz]
      rw [← Bool.decide_and, ← Bool.decide_and]
      exact decide_eq_decide.2 (by tauto)
    have c2 : net.P (fun a => decide (a x = vx) && Has Z zs a) = net.P (fun a => decide (a x = vx ∧ ∀ z ∈ Z, a z = vz z)) := by
      congr 1
      funext a
      simp only [Has, hz]
      rw [← Bool.decide_and]
    have c3 : net.P (Has Z zs) = net.PDo [(x, vx)] (fun a => decide (∀ z ∈ Z, a z = vz z)) := by
      rw [← hdo, PDo_eq_W hin]
      simp only [Has, hz]
    have c4 : (net.doBN [(x, vx)]).W (fun a => if Z.map a = zs then (if ∀ y ∈ ys, a y = vy y then 1 else 0) else 0) =
        net.PDo [(x, vx)] (fun a => decide ((∀ y ∈ ys, a y = vy y) ∧ ∀ z ∈ Z, a z = vz z)) := by
      rw [PDo_eq_W hin]
      congr 1
      funext a
      simp only [hz, decide_eq_true_eq]
      by_cases q1 : ∀ z ∈ Z, a z = vz z
      · by_cases q2 : ∀ y ∈ ys, a y = vy y
        · rw [if_pos q1, if_pos q2, if_pos ⟨q2, q1⟩]
        · rw [if_pos q1, if_neg q2, if_neg (fun h => q2 h.1)]
      · rw [if_neg q1, if_neg (fun h => q1 h.2)]
    rw [c4, c1, c3, div_mul_eq_mul_div, key, ← c2, mul_div_cancel_left₀ _ (hpos zs h0)]

/-- **C95** Conversely, an active back-door trail from `x` to `y` given `Z` means that observing may mislead: the graph can be given CPDs under
which, for some outcomes, `y = vy` is impossible when `x = vx` is observed together with `Z = vz`, but possible when `x` is set to `vx`. -/
theorem C95_confounded {net : Net} (hf : net.Fresh) (hw : net.g.WF) {so : SetOrder} (ho : so.Valid) {x y : Node} {Z : List Node}
    (hx : x ∈ net.g.nodes) (hy : y ∈ net.g.nodes) (hZ : Z ⊆ net.g.nodes) (hxZ : x ∉ Z) (hyZ : y ∉ Z) (hxy : y ≠ x)
    (h : isActiveBackdoorTrail so net.g x y Z = .ok true) :
    ∃ rels net', net.addCpds rels = (net', .ok ()) ∧ net'.m = net.m ∧ net'.Good ∧ net'.Normalised ∧
      ∃ (vx vy : Outcome) (vz : Assign), vx ∈ net'.dom x ∧
        net'.P (fun a => decide (a x = vx ∧ a y = vy ∧ ∀ z ∈ Z, a z = vz z)) = 0 ∧
        0 < net'.P (fun a => decide (a x = vx ∧ ∀ z ∈ Z, a z = vz z)) ∧
        0 < net'.PDo [(x, vx)] (fun a => decide (a y = vy ∧ ∀ z ∈ Z, a z = vz z)) := by
  obtain ⟨v, e1, e2⟩ := (C11_is_active_backdoor_trail net.g hw so ho x y Z).1 (by
    intro n hn
    simp only [List.mem_append, List.mem_cons, List.not_mem_nil, or_false] at hn
    rcases hn with hn | rfl | rfl
    · exact hZ hn
    · exact hx
    · exact hy)
  rw [h] at e1
  obtain ⟨-, -, p, hp, ha⟩ := (backdoor_iff hw hxZ hyZ (Ne.symm hxy)).1 (e2.1 (Except.ok.inj e1).symm)
  have hw' := mute_wf hw x
  obtain ⟨P, hP, h0, hn, -, -, -, hh⟩ := Plan.ofPath hw'.acyclic hp ha (fun _ => hyZ) (Obs := (· ∈ Z)) (fun v _ hv => hv)
    (fun v ⟨z, hz, hd⟩ => ⟨z, hz, hd⟩)
  set W := P.wiring P.trailCells true with hW
  have hl' : W.Local (Mute net.g x) := P.local_trail hP hh true
  have hl : W.Local net.g := ⟨fun i hi hc β β' hb => hl'.loc i hi hc β β' (fun j hj hj' => hb j hj (hj'.imp (fun h => (mute_edge.1 h).1) id))⟩
  obtain ⟨rels, net', k1, k2, -, k4, k5, k6, -, k8, -⟩ := Net.allowing hf hw (free := fun _ => False) (fun _ => W.dom_sorted) (fun _ => W.dom_ne)
    (Wiring.allows hw hl)
  have hg : net'.g = net.g := by show net'.m.g = net.m.g; rw [k2]
  have hB := bn_prob k4 k5
  have hin : ∀ β, net'.InDom (W.assign β) := fun β v hv => by
    rw [k6 v (hg ▸ hv)]; exact Wiring.assign_dom
  have hposs : ∀ a, net'.bn.Possible a → ∀ v ∈ net.g.nodes, W.R v a := fun a ha v hv =>
    (k8 v hv (fun h => h) a ha.1).1 (ha.2 v (by show v ∈ net'.g.nodes; rw [hg]; exact hv))
  have hR : ∀ s v, W.R v (W.assign (P.world true s false)) := fun s v => by
    refine Wiring.R_assign hl (P.world_solves (Or.inl rfl) s false ?_) v
    intro p j hm
    rcases Plan.mem_trailCells.1 hm with ⟨q, _, e⟩ | ⟨q, k, hc, _, e⟩
    · simp at e
    · simp only [Cell.down.injEq] at e; rw [e.1]; exact hc
  have hworld : ∀ s, net'.bn.Possible (W.assign (P.world true s false)) := fun s =>
    ⟨hin _, fun v hv => (k8 v (hg ▸ hv) (fun h => h) _ (hin _)).2 (hR s v)⟩
  have halike : ∀ z ∈ Z, W.assign (P.world true true false) z = W.assign (P.world true false false) z := fun z hz =>
    P.world_alike hP P.trailCells hz (fun _ e => hxZ (by rw [← h0, ← e]; exact hz)) (fun _ hi => Or.inl hi)
      (fun i hi _ => by rcases Plan.mem_trailCells.1 hi with ⟨q, _, rfl⟩ | ⟨q, k, _, _, rfl⟩ <;> simp) _ _ _ _
  have hm : ∀ q ≤ P.n, Cell.main q ∈ W.cells := fun q hq => Plan.mem_trailCells.2 (Or.inl ⟨q, hq, rfl⟩)
  have hnodes : ∀ q ≤ P.n, P.w q ∈ net.g.nodes := by
    intro q hq
    by_cases hq0 : q = 0
    · rw [hq0, h0]; exact hx
    · have := hP.step (q - 1) (by omega)
      rw [show q - 1 + 1 = q by omega] at this
      split at this
      · exact (hw'.edgeNodes _ _ this).2
      · exact (hw'.edgeNodes _ _ this).1
  have hvx : W.assign (P.world true true false) x ∈ net'.dom x := by rw [k6 x hx]; exact Wiring.assign_dom
  refine ⟨rels, net', k1, k2, k4, k5, W.assign (P.world true true false) x, W.assign (P.world true false false) y,
    W.assign (P.world true false false), hvx, ?_, ?_, ?_⟩
  · rw [P_eq_W]
    refine BN.W_impossible hB (fun a ha => ?_)
    rw [if_neg]
    simp only [decide_eq_true_eq, not_and]
    intro hax hay haz
    have hrd : ∀ (i : Cell) (s : Bool), i ∈ P.trailCells → a (P.node i) = W.assign (P.world true s false) (P.node i) →
        W.read a i = P.world true s false i := by
      intro i s hi e
      have := Wiring.read_assign (W := W) (β := P.world true s false) (i := i) hi
      unfold Wiring.read at this ⊢
      rw [← this]
      show W.bit i (a (P.node i)) = W.bit i (W.assign _ (P.node i))
      rw [e]
    have r0 : W.read a (.main 0) = true := by
      rw [hrd (.main 0) true (hm 0 (by omega)) (by show a (P.w 0) = _; rw [h0, hax]; show _ = W.assign _ (P.w 0); rw [h0])]
      simp [Plan.world, Plan.not_col_zero]
    have rn : W.read a (.main P.n) = false := by
      rw [hrd (.main P.n) false (hm P.n (le_refl _)) (by show a (P.w P.n) = _; rw [hn, hay]; show _ = W.assign _ (P.w P.n); rw [hn])]
      simp [Plan.world]
    have hruns : P.Runs true (W.read a) := by
      intro i hi
      have hv : P.node i ∈ net.g.nodes := by
        rcases Plan.mem_trailCells.1 hi with ⟨q, hq, rfl⟩ | ⟨q, j, hc, hj, rfl⟩
        · exact hnodes q hq
        · exact (hw'.edgeNodes _ _ (hP.fall q hc j hj)).2
      exact (hposs a ha (P.node i) hv).2 i hi rfl
    have key := P.signal hruns (by simp [Plan.gateOpen, hh])
    have hs : P.total (W.read a) P.n = false := by
      rw [P.total_seen hruns, P.seen_congr (β' := fun _ => false), P.seen_false]
      intro c hc
      have hland := hP.land c hc
      rw [hrd (P.landing c) false (P.landing_mem hc) (by rw [P.landing_node hP hc]; exact haz _ hland)]
      unfold Plan.landing
      split <;> simp [Plan.world]
    rw [r0, rn, hs] at key
    simp at key
  · rw [P_eq_W]
    refine BN.W_pos hB (fun a _ => by split <;> norm_num) (fun a b hab => ?_) (hworld true) ?_
    · have e1 := hab x (by show x ∈ net'.g.nodes; rw [hg]; exact hx)
      have e2 : ∀ z ∈ Z, a z = b z := fun z hz => hab z (by show z ∈ net'.g.nodes; rw [hg]; exact hZ hz)
      have : (∀ z ∈ Z, a z = W.assign (P.world true false false) z) ↔ ∀ z ∈ Z, b z = W.assign (P.world true false false) z :=
        ⟨fun q z hz => by rw [← e2 z hz, q z hz], fun q z hz => by rw [e2 z hz, q z hz]⟩
      simp only [e1, this]
    · rw [if_pos (by simp only [decide_eq_true_eq, true_and]; exact halike)]; norm_num
  · set a' := Assign.upd (W.assign (P.world true false false)) x (W.assign (P.world true true false) x) with ha'
    have hD : (net'.doBN [(x, W.assign (P.world true true false) x)]).Prob := doBN_prob k4 k5 (by simp) (by simpa using hvx)
    rw [PDo_eq_W (by simpa using hg ▸ hx)]
    have hind : net'.InDom a' := inDom_upd (hin _) hvx
    have hposs' : (net'.doBN [(x, W.assign (P.world true true false) x)]).Possible a' := by
      refine ⟨hind, fun v hv => ?_⟩
      show 0 < (if v ∈ [x] then (if ∀ p ∈ [(x, W.assign (P.world true true false) x)], p.1 = v → a' v = p.2 then 1 else 0) else net'.kernel v a')
      by_cases e : v = x
      · subst e
        simp [ha', Assign.upd_same]
      · rw [if_neg (by simpa using e)]
        refine (k8 v (hg ▸ hv) (fun h => h) _ hind).2 (Wiring.R_scope hl' (fun u hu => ?_) (hR false v))
        have hux : u ≠ x := by
          rcases hu with rfl | hu
          · exact e
          · exact (mute_edge.1 hu).2
        rw [ha', Assign.upd_ne _ _ hux]
    refine BN.W_pos hD (fun a _ => by split <;> norm_num) (fun a b hab => ?_) hposs' ?_
    · have e1 := hab y (by show y ∈ net'.g.nodes; rw [hg]; exact hy)
      have e2 : ∀ z ∈ Z, a z = b z := fun z hz => hab z (by show z ∈ net'.g.nodes; rw [hg]; exact hZ hz)
      have : (∀ z ∈ Z, a z = W.assign (P.world true false false) z) ↔ ∀ z ∈ Z, b z = W.assign (P.world true false false) z :=
        ⟨fun q z hz => by rw [← e2 z hz, q z hz], fun q z hz => by rw [e2 z hz, q z hz]⟩
      simp only [e1, this]
    · rw [if_pos]
      · norm_num
      · simp only [decide_eq_true_eq]
        refine ⟨by rw [ha', Assign.upd_ne _ _ hxy], fun z hz => ?_⟩
        have hzx : z ≠ x := fun e => hxZ (e ▸ hz)
        rw [ha', Assign.upd_ne _ _ hzx]

/-- **C95** So `is_active_backdoor_trail(x, y, Z)` is True exactly if for some CPDs, P(y | x, Z) and P(y | do(x), Z) differ. -/
theorem C95_iff {net : Net} (hf : net.Fresh) (hw : net.g.WF) {so : SetOrder} (ho : so.Valid) {x y : Node} {Z : List Node}
    (hx : x ∈ net.g.nodes) (hy : y ∈ net.g.nodes) (hZ : Z ⊆ net.g.nodes) (hxZ : x ∉ Z) (hyZ : y ∉ Z) (hxy : y ≠ x) :
    isActiveBackdoorTrail so net.g x y Z = .ok true ↔
    ∃ rels net', net.addCpds rels = (net', .ok ()) ∧ net'.m = net.m ∧ net'.Good ∧ net'.Normalised ∧
      ∃ (vx vy : Outcome) (vz : Assign), vx ∈ net'.dom x ∧ net'.P (fun a => decide (a x = vx ∧ ∀ z ∈ Z, a z = vz z)) ≠ 0 ∧
        net'.P (fun a => decide (a x = vx ∧ a y = vy ∧ ∀ z ∈ Z, a z = vz z)) / net'.P (fun a => decide (a x = vx ∧ ∀ z ∈ Z, a z = vz z)) ≠
          net'.PDo [(x, vx)] (fun a => decide (a y = vy ∧ ∀ z ∈ Z, a z = vz z)) / net'.PDo [(x, vx)] (fun a => decide (∀ z ∈ Z, a z = vz z)) := by
  constructor
  · intro h
    obtain ⟨rels, net', k1, k2, k3, k4, vx, vy, vz, hv, p1, p2, p3⟩ := C95_confounded hf hw ho hx hy hZ hxZ hyZ hxy h
    refine ⟨rels, net', k1, k2, k3, k4, vx, vy, vz, hv, ne_of_gt p2, ?_⟩
    have hg : net'.g = net.g := by show net'.m.g = net.m.g; rw [k2]
    have hin : ∀ p ∈ [(x, vx)], p.1 ∈ net'.g.nodes := by simpa using hg ▸ hx
    rw [p1, zero_div]
    refine ne_of_lt (div_pos p3 (lt_of_lt_of_le p3 ?_))
    rw [PDo_eq_W hin, PDo_eq_W hin]
    refine BN.W_le (doBN_prob k3 k4 (by simp) (by simpa using hv)) (fun a _ => ?_)
    by_cases q : ∀ z ∈ Z, a z = vz z
    · rw [if_pos (decide_eq_true q)]; split <;> norm_num
    · rw [if_neg (by rw [decide_eq_true_eq]; exact fun h => q h.2)]; split <;> norm_num
  · rintro ⟨rels, net', k1, k2, k3, k4, vx, vy, vz, hv, hp, hne⟩
    have hg : net'.g = net.g := by show net'.m.g = net.m.g; rw [k2]
    obtain ⟨b, e1, -⟩ := (C11_is_active_backdoor_trail net.g hw so ho x y Z).1 (by
      intro n hn
      simp only [List.mem_append, List.mem_cons, List.not_mem_nil, or_false] at hn
      rcases hn with hn | rfl | rfl
      · exact hZ hn
      · exact hx
      · exact hy)
    cases b with
    | true => exact e1
    | false =>
      exfalso
      apply hne
      have hin : ∀ p ∈ [(x, vx)], p.1 ∈ net'.g.nodes := by simpa using hg ▸ hx
      have key := C95_observe_do k3 k4 ho (ys := [y]) (hg ▸ hx) hv (Z := Z) (hg ▸ hZ) hxZ
        (fun t ht => by rw [List.mem_singleton.1 ht]; exact ⟨hg ▸ hy, hxy, by rw [hg]; exact e1⟩) (fun _ => vy) vz
      simp only [List.mem_singleton, forall_eq] at key
      have hpos : net'.PDo [(x, vx)] (fun a => decide (∀ z ∈ Z, a z = vz z)) ≠ 0 := by
        have hle := observe_le_do k3 k4 (hg ▸ hx) hv (f := fun a => if ∀ z ∈ Z, a z = vz z then 1 else 0)
          (fun a => by split <;> norm_num) (fun a b hab => by
            have e1 : ∀ v ∈ Z, a v = b v := fun v hv => hab v ⟨hg ▸ hZ hv, fun e => hxZ (e ▸ hv)⟩
            have e2 : (∀ v ∈ Z, a v = vz v) ↔ ∀ v ∈ Z, b v = vz v := forall₂_congr (fun v hv => by rw [e1 v hv])
            simp only [e2])
        have p0 : 0 < net'.P (fun a => decide (a x = vx ∧ ∀ z ∈ Z, a z = vz z)) := by
          refine lt_of_le_of_ne ?_ (Ne.symm hp)
          rw [P_eq_W]
          exact BN.W_nonneg (bn_prob k3 k4) (fun a _ => by split <;> norm_num)
        rw [P_eq_W] at p0
        rw [PDo_eq_W hin]
        simp only [decide_eq_true_eq]
        refine ne_of_gt (lt_of_lt_of_le (lt_of_lt_of_eq p0 ?_) hle)
        congr 1
        funext a
        by_cases q1 : a x = vx
        · by_cases q2 : ∀ z ∈ Z, a z = vz z
          · rw [if_pos (decide_eq_true ⟨q1, q2⟩), if_pos q1, if_pos q2]
          · rw [if_neg (by rw [decide_eq_true_eq]; exact fun h => q2 h.2), if_pos q1, if_neg q2]
        · rw [if_neg (by rw [decide_eq_true_eq]; exact fun h => q1 h.1), if_neg q1]
      rw [div_eq_div_iff hp hpos, key]
      ring

/-- The hypotheses are met: without observing `A` there is an active back-door trail from `D` to `U`, and seeing `D` is not setting `D`;
given `A` there is none. -/
example : Ex.net.Usable ∧ SetOrder.id.Valid ∧ Ex.net.IntOk [("D", 1)] ∧
    isActiveBackdoorTrail SetOrder.id Ex.net.g "D" "U" [] = .ok true ∧
    isActiveBackdoorTrail SetOrder.id Ex.net.g "D" "U" ["A"] = .ok false ∧
    Ex.net.P (Ctx [("D", 1), ("A", 1)]) ≠ 0 ∧
    (Ex.net.query (fun _ _ => 0) id ["U"] [("D", 1), ("A", 1)] []).2 = (Ex.net.query (fun _ _ => 0) id ["U"] [("A", 1)] [("D", 1)]).2 ∧
    (Ex.net.query (fun _ _ => 0) id ["U"] [("A", 1)] [("D", 1)]).2.isOk = true :=
  ⟨Ex.net_usable, fun _ l => List.Perm.refl l, Ex.intOk, by decide +kernel, by decide +kernel, by decide +kernel, by decide +kernel, by decide +kernel⟩

end Verif

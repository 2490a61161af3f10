import Verif.Lemmas.Calculus
import Verif.Props.Refusal

/-!
# C117: the rules of the do-calculus
-/

namespace Verif
open Net Graph Relation Macid

theorem names_sub {g : Graph} {l : List (Node × Outcome)} (h : ∀ p ∈ l, p.1 ∈ g.nodes) : l.map (·.1) ⊆ g.nodes := fun x hx => by
  obtain ⟨p, hp, rfl⟩ := List.mem_map.1 hx
  exact h p hp

theorem append_sub {g : Graph} {l l' : List Node} (h : l ⊆ g.nodes) (h' : l' ⊆ g.nodes) : l ++ l' ⊆ g.nodes := fun x hx =>
  (List.mem_append.1 hx).elim (fun q => h q) (fun q => h' q)

/-- the probability after an intervention, seen from the network after a part of the intervention -/
theorem PDo_within {n : Net} {int int' ctx : List (Node × Outcome)} (hin : ∀ p ∈ int', p.1 ∈ n.g.nodes) (hsub : ∀ p ∈ int, p ∈ int') {z : Assign}
    (hz : (∀ p ∈ ctx, z p.1 = p.2) ∧ ∀ p ∈ int, z p.1 = p.2) (E : Assign → Bool) : n.PDo int' (fun a => E a && Ctx ctx a) =
      (n.doBN int').W (BN.at_ (ctx.map (·.1) ++ int.map (·.1)) z (fun a => if E a then 1 else 0)) := by
  have hagree : ∀ a : Assign, (∀ v ∈ ctx.map (·.1) ++ int.map (·.1), a v = z v) ↔ (Ctx ctx a = true ∧ ∀ p ∈ int, a p.1 = p.2) := by
    intro a
    simp only [List.mem_append, List.mem_map, Ctx, List.all_eq_true, decide_eq_true_eq]
    constructor
    · intro h
      exact ⟨fun p hp => (h p.1 (Or.inl ⟨p, hp, rfl⟩)).trans (hz.1 p hp), fun p hp => (h p.1 (Or.inr ⟨p, hp, rfl⟩)).trans (hz.2 p hp)⟩
    · rintro ⟨h1, h2⟩ v (⟨p, hp, rfl⟩ | ⟨p, hp, rfl⟩)
      · rw [h1 p hp, hz.1 p hp]
      · rw [h2 p hp, hz.2 p hp]
  rw [show n.PDo int' (fun a => E a && Ctx ctx a) = n.PDo int' (fun a => E a && Ctx ctx a && decide (∀ p ∈ int, a p.1 = p.2)) from
    PDo_congr (fun a _ ha => by rw [decide_eq_true (fun p hp => ha p (hsub p hp))]; simp), PDo_eq_W hin]
  congr 1
  funext a
  unfold BN.at_
  by_cases h : ∀ v ∈ ctx.map (·.1) ++ int.map (·.1), a v = z v
  · rw [if_pos h]
    have := (hagree a).1 h
    rw [this.1, decide_eq_true this.2]
    simp
  · rw [if_neg h]
    have : ¬ (Ctx ctx a = true ∧ ∀ p ∈ int, a p.1 = p.2) := fun q => h ((hagree a).2 q)
    rw [if_neg]
    simp only [Bool.and_eq_true, decide_eq_true_eq]
    exact fun q => this ⟨q.1.2, q.2⟩

theorem PDo_mono {net : Net} (hG : net.Good) (hN : net.Normalised) {int : List (Node × Outcome)} (hi : net.IntOk int) {E F : Assign → Bool}
    (h : ∀ a, E a = true → F a = true) (h0 : net.PDo int E ≠ 0) : net.PDo int F ≠ 0 := by
  have hin : ∀ p ∈ int, p.1 ∈ net.g.nodes := fun p hp => (hi.2 p hp).1
  have hB := doBN_prob hG hN hi.1 (fun p hp => (hi.2 p hp).2.1)
  intro e
  apply h0
  have hle : net.PDo int E ≤ net.PDo int F := by
    rw [PDo_eq_W hin, PDo_eq_W hin]
    apply BN.W_le hB
    intro b _
    by_cases h1 : E b = true
    · rw [if_pos h1, if_pos (h b h1)]
    · rw [if_neg h1]
      split <;> norm_num
  have hge : 0 ≤ net.PDo int E := by
    rw [PDo_eq_W hin]
    exact BN.W_nonneg hB (fun b _ => by split <;> norm_num)
  rw [e] at hle
  exact le_antisymm hle hge

theorem ite_has {q : List Node} {xs : List Outcome} {S : Node → Prop} (h : ∀ v ∈ q, S v) :
    DependsOn (fun a : Assign => if Has q xs a = true then (1 : Rat) else 0) S := fun a b hab => by
  show (if Has q xs a = true then (1 : Rat) else 0) = if Has q xs b = true then 1 else 0
  rw [has_depends q xs a b (fun v hv => hab v (h v hv))]

/-- **C117** Rule 1.  Observations of variables that are separated from the queried ones in the graph without the edges into the intervened
variables, given context and intervention, can be left out. -/
theorem C117_rule1 {net : Net} (hG : net.Good) (hN : net.Normalised) {int ctx more : List (Node × Outcome)} (hi : net.IntOk int)
    (hc : ∀ p ∈ ctx, p.1 ∈ net.g.nodes) (hm : ∀ p ∈ more, p.1 ∈ net.g.nodes) {q : List Node}
    (hq : ∀ y ∈ q, y ∈ net.g.nodes ∧ ∀ x ∈ more.map (·.1), ¬ (CutGraph net.g (int.map (·.1))).DConn x y (ctx.map (·.1) ++ int.map (·.1)))
    (hpos : net.PDo int (Ctx (ctx ++ more)) ≠ 0) (xs : List Outcome) : net.Given int (ctx ++ more) q xs = net.Given int ctx q xs := by
  have hin : ∀ p ∈ int, p.1 ∈ net.g.nodes := fun p hp => (hi.2 p hp).1
  have hB := doBN_prob hG hN hi.1 (fun p hp => (hi.2 p hp).2.1)
  have hZ := append_sub (names_sub hc) (names_sub hin)
  have hpos' : net.PDo int (Ctx ctx) ≠ 0 := PDo_mono hG hN hi (fun a h => by rw [ctx_append, Bool.and_eq_true] at h; exact h.1) hpos
  obtain ⟨z, hz⟩ := PDo_witness hpos'
  have hmore : ∀ v ∈ more.map (·.1), v ∈ net.g.nodes := fun v hv => names_sub hm hv
  have key := BN.ci hB (Z := ctx.map (·.1) ++ int.map (·.1)) (S := more.map (·.1)) (T := q) (fun v hv => hZ hv)
    (fun t ht hr => by
      obtain ⟨s, hs, hr'⟩ := reached_single hr
      exact not_reached_of_sep (cutGraph_wf hG.wf _) (hmore s hs) hZ ((hq t ht).2 s hs) hr') z
    (f := fun b => if Ctx more b then 1 else 0) (h := fun b => if Has q xs b then 1 else 0)
    (fun b b' hb => by
      show (if Ctx more b = true then (1 : Rat) else 0) = if Ctx more b' = true then 1 else 0
      rw [ctx_depends more b b' (fun v hv => hb v (Or.inr ⟨hv, hmore v hv⟩))])
    (ite_has (fun v hv => Or.inr ⟨hv, (hq v hv).1⟩))
  have e1 := PDo_at hin hz (fun a => Ctx more a && Has q xs a)
  have e2 := PDo_at hin hz (Has q xs)
  have e3 := PDo_at hin hz (Ctx more)
  have e4 : net.PDo int (Ctx ctx) = _ := (PDo_congr (by simp)).trans (PDo_at hin hz (fun _ => true))
  simp only [if_true] at e4
  have e5 : (fun a : Assign => if (Ctx more a && Has q xs a) = true then (1 : Rat) else 0) =
      fun a => (if Ctx more a = true then 1 else 0) * (if Has q xs a = true then 1 else 0) := by
    funext a
    by_cases h1 : Ctx more a = true <;> by_cases h2 : Has q xs a = true <;> simp [h1, h2]
  rw [e5] at e1
  rw [← e1, ← e2, ← e3, ← e4] at key
  have k1 : net.PDo int (fun a => (Ctx more a && Has q xs a) && Ctx ctx a) = net.PDo int (fun a => Has q xs a && Ctx (ctx ++ more) a) :=
    PDo_congr (fun a _ _ => by rw [ctx_append, Bool.and_comm (Ctx more a), Bool.and_assoc, Bool.and_comm (Ctx more a)])
  have k2 : net.PDo int (fun a => Ctx more a && Ctx ctx a) = net.PDo int (Ctx (ctx ++ more)) :=
    PDo_congr (fun a _ _ => by rw [ctx_append, Bool.and_comm])
  rw [k1, k2] at key
  unfold Given
  rw [div_eq_div_iff hpos hpos', key]
  ring

/-- **C117** Rule 2.  Observing `x` is setting `x`, for queried variables that are separated from `x` in the graph without the edges into the
intervened variables and the edges out of `x`, given context and intervention. -/
theorem C117_rule2 {net : Net} (hG : net.Good) (hN : net.Normalised) {int ctx : List (Node × Outcome)} {x : Node} {v : Outcome}
    (hi : net.IntOk ((x, v) :: int)) (hc : ∀ p ∈ ctx, p.1 ∈ net.g.nodes) (hxc : x ∉ ctx.map (·.1)) {q : List Node}
    (hq : ∀ y ∈ q, y ∈ net.g.nodes ∧ y ≠ x ∧ ¬ (Silent (CutGraph net.g (int.map (·.1))) x).DConn x y (ctx.map (·.1) ++ int.map (·.1)))
    (hpos : net.PDo int (Ctx ((x, v) :: ctx)) ≠ 0) :
    net.PDo ((x, v) :: int) (Ctx ctx) ≠ 0 ∧ ∀ xs, net.Given int ((x, v) :: ctx) q xs = net.Given ((x, v) :: int) ctx q xs := by
  have hi1 : net.IntOk int := ⟨(List.nodup_cons.1 hi.1).2, fun p hp => hi.2 p (by simp [hp])⟩
  have hxi : x ∉ int.map (·.1) := (List.nodup_cons.1 hi.1).1
  have hx := (hi.2 (x, v) (by simp)).1
  have hv := (hi.2 (x, v) (by simp)).2.1
  have hin : ∀ p ∈ int, p.1 ∈ net.g.nodes := fun p hp => (hi1.2 p hp).1
  have hin' : ∀ p ∈ (x, v) :: int, p.1 ∈ net.g.nodes := fun p hp => (hi.2 p hp).1
  have hB := doBN_prob hG hN hi1.1 (fun p hp => (hi1.2 p hp).2.1)
  have hZ := append_sub (names_sub hc) (names_sub hin)
  have hxZ : x ∉ ctx.map (·.1) ++ int.map (·.1) := by simp only [List.mem_append, not_or]; exact ⟨hxc, hxi⟩
  have hpos1 : net.PDo int (Ctx ctx) ≠ 0 :=
    PDo_mono hG hN hi1 (fun a h => by simp only [Ctx, List.all_cons, Bool.and_eq_true] at h; exact h.2) hpos
  obtain ⟨z, hz⟩ := PDo_witness hpos1
  have hobs : ∀ E : Assign → Bool, net.PDo int (fun a => E a && Ctx ((x, v) :: ctx) a) =
      (net.doBN int).W (fun a => if a x = v then BN.at_ (ctx.map (·.1) ++ int.map (·.1)) z (fun a => if E a then 1 else 0) a else 0) := by
    intro E
    have e : net.PDo int (fun a => E a && Ctx ((x, v) :: ctx) a) = net.PDo int (fun a => (decide (a x = v) && E a) && Ctx ctx a) :=
      PDo_congr (fun a _ _ => by
        simp only [Ctx, List.all_cons]
        cases E a <;> cases decide (a x = v) <;> simp)
    rw [e, PDo_at hin hz (fun a => decide (a x = v) && E a)]
    congr 1
    funext a
    unfold BN.at_
    by_cases h1 : a x = v <;> by_cases h2 : ∀ w ∈ ctx.map (·.1) ++ int.map (·.1), a w = z w <;> simp [h1, h2]
  have hdo : ∀ E : Assign → Bool, net.PDo ((x, v) :: int) (fun a => E a && Ctx ctx a) =
      ((net.doBN int).withRule x (fun a => if a x = v then 1 else 0)).W (BN.at_ (ctx.map (·.1) ++ int.map (·.1)) z (fun a => if E a then 1 else 0)) :=
    fun E => (PDo_within hin' (int := int) (fun p hp => List.mem_cons_of_mem _ hp) hz E).trans (doBN_cons hxi _)
  have hobs1 : net.PDo int (Ctx ((x, v) :: ctx)) = _ := (PDo_congr (by simp)).trans (hobs (fun _ => true))
  have hdo1 : net.PDo ((x, v) :: int) (Ctx ctx) = _ := (PDo_congr (by simp)).trans (hdo (fun _ => true))
  simp only [if_true] at hobs1 hdo1
  have hpos' : net.PDo ((x, v) :: int) (Ctx ctx) ≠ 0 := by
    have hle := BN.observe_le_set hB (x := x) (vx := v) hx hv (f := BN.at_ (ctx.map (·.1) ++ int.map (·.1)) z (fun _ => 1))
      (fun a => by unfold BN.at_; split <;> norm_num)
      (fun a b hab => by
        have e2 : (∀ w ∈ ctx.map (·.1) ++ int.map (·.1), a w = z w) ↔ ∀ w ∈ ctx.map (·.1) ++ int.map (·.1), b w = z w :=
          forall₂_congr (fun w hw => by rw [hab w ⟨hZ hw, fun e => hxZ (e ▸ hw)⟩])
        unfold BN.at_
        simp only [e2])
    rw [← hobs1, ← hdo1] at hle
    have h0 : 0 ≤ net.PDo int (Ctx ((x, v) :: ctx)) := by
      rw [PDo_eq_W hin]
      exact BN.W_nonneg hB (fun b _ => by split <;> norm_num)
    exact ne_of_gt (lt_of_lt_of_le (lt_of_le_of_ne h0 (Ne.symm hpos)) hle)
  refine ⟨hpos', fun xs => ?_⟩
  have key := BN.observe_set hB (x := x) (vx := v) hx hv (T := q) hZ hxZ
    (fun t ht => ⟨(hq t ht).1, (hq t ht).2.1, not_reached_of_sep (mute_wf (cutGraph_wf hG.wf _) x) hx hZ (hq t ht).2.2⟩) z
    (h := fun a => if Has q xs a then 1 else 0) (ite_has (fun v hv => Or.inr hv))
  rw [← hobs, ← hdo, ← hobs1, ← hdo1] at key
  unfold Given
  rw [div_eq_div_iff hpos hpos', key]
  ring

/-- **C117** Rule 3.  Setting `x` makes no difference for queried variables that a change of the CPD of `x` cannot reach. -/
theorem C117_rule3 {net : Net} (hG : net.Good) (hN : net.Normalised) {int ctx : List (Node × Outcome)} {x : Node} {v : Outcome}
    (hi : net.IntOk ((x, v) :: int)) (hc : ∀ p ∈ ctx, p.1 ∈ net.g.nodes) {q : List Node}
    (hq : ∀ y ∈ q, y ∈ net.g.nodes ∧ ¬ net.MechConn (int.map (·.1)) (ctx.map (·.1)) x y)
    (hpos : net.PDo int (Ctx ctx) ≠ 0) (hpos' : net.PDo ((x, v) :: int) (Ctx ctx) ≠ 0) (xs : List Outcome) :
    net.Given ((x, v) :: int) ctx q xs = net.Given int ctx q xs := by
  have hi1 : net.IntOk int := ⟨(List.nodup_cons.1 hi.1).2, fun p hp => hi.2 p (by simp [hp])⟩
  have hxi : x ∉ int.map (·.1) := (List.nodup_cons.1 hi.1).1
  have hx := (hi.2 (x, v) (by simp)).1
  have hv := (hi.2 (x, v) (by simp)).2.1
  have hin : ∀ p ∈ int, p.1 ∈ net.g.nodes := fun p hp => (hi1.2 p hp).1
  have hin' : ∀ p ∈ (x, v) :: int, p.1 ∈ net.g.nodes := fun p hp => (hi.2 p hp).1
  have hB := doBN_prob hG hN hi1.1 (fun p hp => (hi1.2 p hp).2.1)
  have hZ := append_sub (names_sub hc) (names_sub hin)
  obtain ⟨z, hz⟩ := PDo_witness hpos
  obtain ⟨n, hn⟩ := exists_fresh net.g.nodes
  have hw' := withParent_wf (g := CutGraph net.g (int.map (·.1))) (cutGraph_wf hG.wf _) hn hx
  have key := BN.irrelevant hB (BN.withRule_prob hB (BN.isRule_ind hB (d := x) hx hv)) rfl (fun _ _ => rfl) (Ds := (· = x))
    (fun w _ hne a _ => by
      show (if w = x then _ else (net.doBN int).k w) a = _
      rw [if_neg hne])
    (G := (CutGraph net.g (int.map (·.1))).withParent n x) (Z := ctx.map (·.1) ++ int.map (·.1)) (S := [n]) (T := q)
    (fun u w huw => withParent_edge.2 (Or.inr (show (CutGraph net.g (int.map (·.1))).Edge u w from huw))) (fun w hw => hZ hw)
    (fun w _ e => ⟨n, by simp, fun q => hn (hZ q), withParent_edge.2 (Or.inl ⟨rfl, e⟩)⟩)
    (fun t ht => not_reached_of_sep hw' List.mem_cons_self (fun w hw => List.mem_cons_of_mem _ (hZ hw)) (fun h => (hq t ht).2 ⟨n, hn, h⟩)) z
    (h := fun a => if Has q xs a then 1 else 0) (ite_has (fun v hv => Or.inr ⟨hv, (hq v hv).1⟩))
  have hdo : ∀ E : Assign → Bool, net.PDo ((x, v) :: int) (fun a => E a && Ctx ctx a) =
      ((net.doBN int).withRule x (fun a => if a x = v then 1 else 0)).W (BN.at_ (ctx.map (·.1) ++ int.map (·.1)) z (fun a => if E a then 1 else 0)) :=
    fun E => (PDo_within hin' (int := int) (fun p hp => List.mem_cons_of_mem _ hp) hz E).trans (doBN_cons hxi _)
  have e1 := PDo_at hin hz (Has q xs)
  have e3 : net.PDo int (Ctx ctx) = _ := (PDo_congr (by simp)).trans (PDo_at hin hz (fun _ => true))
  have e4 : net.PDo ((x, v) :: int) (Ctx ctx) = _ := (PDo_congr (by simp)).trans (hdo (fun _ => true))
  simp only [if_true] at e3 e4
  rw [← e1, ← hdo, ← e3, ← e4] at key
  unfold Given
  rw [div_eq_div_iff hpos' hpos]
  exact key.symm

/-- **C117** In the words of the textbook: the condition of Rule 3 is that `x` is separated from the queried variable in the graph without the
edges into the intervened variables, where the edges into `x` are removed, too, unless something below `x` is observed. -/
theorem C117_rule3_graph {net : Net} (hw : net.g.WF) {I Z : List Node} {x y : Node} (hx : x ∈ net.g.nodes) (hy : y ∈ net.g.nodes)
    (hI : I ⊆ net.g.nodes) (hZ : Z ⊆ net.g.nodes) (hxI : x ∉ I) (hxZ : x ∉ Z) :
    ((∃ z ∈ Z, (CutGraph net.g I).DescEq x z) → (net.MechConn I Z x y ↔ (CutGraph net.g I).DConn x y (Z ++ I))) ∧
    ((¬ ∃ z ∈ Z, (CutGraph net.g I).DescEq x z) → (net.MechConn I Z x y ↔ (CutGraph net.g (x :: I)).DConn x y (Z ++ I))) := by
  have hw' := cutGraph_wf hw I
  obtain ⟨n, hn⟩ := exists_fresh net.g.nodes
  have hZI := append_sub hZ hI
  have hxZI : x ∉ Z ++ I := by simp only [List.mem_append, not_or]; exact ⟨hxZ, hxI⟩
  have h1 : net.MechConn I Z x y ↔ Into (CutGraph net.g I) (Z ++ I) x y :=
    (mechConn_iff hw hx hy hn hI hZ).trans ((sourceExt_withParent (g := CutGraph net.g I) hn hx).dconn_iff hw' ⟨rfl, rfl⟩ hy (fun z hz => hZI hz))
  have hanc : (∃ z ∈ Z ++ I, (CutGraph net.g I).DescEq x z) ↔ ∃ z ∈ Z, (CutGraph net.g I).DescEq x z := by
    constructor
    · rintro ⟨z, hz, hd⟩
      rcases List.mem_append.1 hz with h | h
      · exact ⟨z, h, hd⟩
      · rcases ReflTransGen.cases_tail hd with e | ⟨c, -, hc⟩
        · exact absurd (e ▸ h) hxI
        · exact absurd h (mem_cutGraph.1 hc).2
    · rintro ⟨z, hz, hd⟩
      exact ⟨z, List.mem_append_left _ hz, hd⟩
  have hcut : (CutGraph (CutGraph net.g I) [x]).DConn x y (Z ++ I) ↔ (CutGraph net.g (x :: I)).DConn x y (Z ++ I) := by
    refine Graph.dconn_congr (fun u w => ?_) _ _ _
    rw [mem_cutGraph, mem_cutGraph, mem_cutGraph]
    simp only [List.mem_cons, List.mem_singleton, List.not_mem_nil, or_false, not_or]
    tauto
  rw [h1, into_iff hw' hxZI, hanc, hcut]
  exact ⟨fun h => by simp [h], fun h => by simp only [h, not_false_iff, true_and, false_and, false_or]⟩

theorem entry_given {net : Net} (hU : net.Usable) {pick : Pick} {ord : List Node → List Node} (hord : ∀ l, (ord l).Perm l)
    {q : List Node} {ctx int : List (Node × Outcome)} (hi : net.IntOk int) {f : Factor}
    (h : (net.query pick ord q ctx int).2 = .ok f) (hpos : net.PDo int (Ctx ctx) ≠ 0) {a : Assign} (ha : net.InDom a) :
    f.entry a = some (net.Given int ctx q (q.map a)) := by
  have e : ∀ b : Assign, decide (∀ v ∈ q, b v = a v) = Has q (q.map a) b := fun b => by
    unfold Has
    rw [decide_eq_decide, List.map_inj_left]
  rw [answer_entry hU hord hi h hpos ha]
  simp only [e]
  rfl

/-- **C117** So the answers of `query` obey the three rules. -/
theorem C117_query {net : Net} (hU : net.Usable) {pick pick' : Pick} {ord ord' : List Node → List Node} (hord : ∀ l, (ord l).Perm l)
    (hord' : ∀ l, (ord' l).Perm l) {q : List Node} {ctx int : List (Node × Outcome)} {f f' : Factor} {a : Assign} (ha : net.InDom a) :
    (∀ more, net.IntOk int → (∀ y ∈ q, ∀ x ∈ more.map (·.1), ¬ (CutGraph net.g (int.map (·.1))).DConn x y (ctx.map (·.1) ++ int.map (·.1))) →
      (net.query pick ord q (ctx ++ more) int).2 = .ok f → (net.query pick' ord' q ctx int).2 = .ok f' →
      net.PDo int (Ctx (ctx ++ more)) ≠ 0 → f.entry a = f'.entry a) ∧
    (∀ x v, net.IntOk ((x, v) :: int) → x ∉ ctx.map (·.1) →
      (∀ y ∈ q, ¬ (Silent (CutGraph net.g (int.map (·.1))) x).DConn x y (ctx.map (·.1) ++ int.map (·.1))) →
      (net.query pick ord q ((x, v) :: ctx) int).2 = .ok f → (net.query pick' ord' q ctx ((x, v) :: int)).2 = .ok f' →
      net.PDo int (Ctx ((x, v) :: ctx)) ≠ 0 → f.entry a = f'.entry a) ∧
    (∀ x v, net.IntOk ((x, v) :: int) → (∀ y ∈ q, ¬ net.MechConn (int.map (·.1)) (ctx.map (·.1)) x y) →
      (net.query pick ord q ctx ((x, v) :: int)).2 = .ok f → (net.query pick' ord' q ctx int).2 = .ok f' →
      net.PDo int (Ctx ctx) ≠ 0 → net.PDo ((x, v) :: int) (Ctx ctx) ≠ 0 → f.entry a = f'.entry a) := by
  refine ⟨fun more hi hs h h' hp => ?_, fun x v hi hx hs h h' hp => ?_, fun x v hi hs h h' hp hp' => ?_⟩
  · obtain ⟨hctx, -, hq, -⟩ := C38_answered_only_if_legal hU hord hi h
    have hp' : net.PDo int (Ctx ctx) ≠ 0 :=
      PDo_mono hU.good hU.normalised hi (fun a h => by rw [ctx_append, Bool.and_eq_true] at h; exact h.1) hp
    rw [entry_given hU hord hi h hp ha, entry_given hU hord' hi h' hp' ha, C117_rule1 hU.good hU.normalised hi (fun p hp => (hctx p (by simp [hp])).1)
      (fun p hp => (hctx p (by simp [hp])).1) (fun y hy => ⟨hq y hy, hs y hy⟩) hp]
  · have hi1 : net.IntOk int := ⟨(List.nodup_cons.1 hi.1).2, fun p hp => hi.2 p (by simp [hp])⟩
    obtain ⟨hctx, -, hq, hqc, -⟩ := C38_answered_only_if_legal hU hord hi1 h
    obtain ⟨h1, h2⟩ := C117_rule2 hU.good hU.normalised hi (fun p hp => (hctx p (by simp [hp])).1) hx
      (fun y hy => ⟨hq y hy, fun e => hqc y hy (by simp [e]), hs y hy⟩) hp
    rw [entry_given hU hord hi1 h hp ha, entry_given hU hord' hi h' h1 ha, h2]
  · have hi1 : net.IntOk int := ⟨(List.nodup_cons.1 hi.1).2, fun p hp => hi.2 p (by simp [hp])⟩
    obtain ⟨hctx, -, hq, -⟩ := C38_answered_only_if_legal hU hord hi h
    rw [entry_given hU hord hi h hp' ha, entry_given hU hord' hi1 h' hp ha, C117_rule3 hU.good hU.normalised hi (fun p hp => (hctx p hp).1)
      (fun y hy => ⟨hq y hy, hs y hy⟩) hp hp']

/-- **C117** The order in which interventions are listed does not matter. -/
theorem C117_order {net : Net} (hU : net.Usable) {pick pick' : Pick} {ord ord' : List Node → List Node} (hord : ∀ l, (ord l).Perm l)
    (hord' : ∀ l, (ord' l).Perm l) {q : List Node} {ctx int int' : List (Node × Outcome)} (hp : int.Perm int') (hi : net.IntOk int) {f f' : Factor}
    (h : (net.query pick ord q ctx int).2 = .ok f) (h' : (net.query pick' ord' q ctx int').2 = .ok f') (hpos : net.PDo int (Ctx ctx) ≠ 0) :
    net.IntOk int' ∧ (∀ E, net.PDo int E = net.PDo int' E) ∧ ∀ a, net.InDom a → f.entry a = f'.entry a := by
  have hi' : net.IntOk int' := ⟨(hp.map _).nodup_iff.1 hi.1, fun p q => hi.2 p (hp.mem_iff.2 q)⟩
  have hP : ∀ E, net.PDo int E = net.PDo int' E := fun E => by
    unfold PDo
    have e1 : ∀ a : Assign, (∀ p ∈ int, a p.1 = p.2) ↔ ∀ p ∈ int', a p.1 = p.2 := fun a => forall_congr' (fun p => by rw [hp.mem_iff])
    have e2 : ∀ v, v ∈ int.map (·.1) ↔ v ∈ int'.map (·.1) := fun v => (hp.map _).mem_iff
    simp only [e1, e2]
  refine ⟨hi', hP, fun a ha => ?_⟩
  rw [entry_given hU hord hi h hpos ha, entry_given hU hord' hi' h' (by rw [← hP]; exact hpos) ha]
  unfold Given
  rw [hP, hP]

theorem sep_of_ok {g : Graph} (hw : g.WF) {s t : Node} {Z : List Node} (hs : s ∈ g.nodes) (hZ : Z ⊆ g.nodes)
    (h : isDConnected (fun _ _ => 0) g s t Z = .ok false) : ¬ g.DConn s t Z := by
  obtain ⟨b, h1, h2⟩ := isDConnected_spec hw (fun _ _ => 0) (t := t) hs hZ
  rw [h] at h1
  cases h1
  intro q
  exact absurd (h2.2 q) (by simp)

theorem ExRm.intOk : ExRm.net.IntOk [("B", 0), ("D", 1)] ∧ ExRm.net.IntOk [("D", 1), ("B", 0)] := by
  constructor <;> refine ⟨by decide, fun p hp => ?_⟩ <;> simp only [List.mem_cons, List.not_mem_nil, or_false] at hp <;>
    rcases hp with rfl | rfl <;> exact ⟨by decide +kernel, by decide +kernel, Or.inl (by decide +kernel)⟩

/-- **C117** The hypotheses are met in the network with A → B, A → D → U and A → U.  With D set and A known, B can be left out of the
context; with B set and A known, it makes no difference whether D is observed or set; with D set and A known, B can be left out of the
intervention. -/
theorem C117_example :
    ExRm.net.Usable ∧ (ExRm.net.IntOk [("B", 0), ("D", 1)] ∧ ExRm.net.IntOk [("D", 1), ("B", 0)]) ∧
    (¬ (CutGraph ExRm.net.g ["D"]).DConn "B" "U" ["A", "D"] ∧ ExRm.net.PDo [("D", 1)] (Ctx [("A", 1), ("B", 1)]) = 3 / 4) ∧
    (¬ (Silent (CutGraph ExRm.net.g ["B"]) "D").DConn "D" "U" ["A", "B"] ∧ ExRm.net.PDo [("B", 0)] (Ctx [("D", 1), ("A", 1)]) = 3 / 8) ∧
    (¬ ExRm.net.MechConn ["D"] ["A"] "B" "U" ∧ ExRm.net.PDo [("D", 1)] (Ctx [("A", 1)]) = 3 / 4 ∧
      ExRm.net.PDo [("B", 0), ("D", 1)] (Ctx [("A", 1)]) = 3 / 4) := by
  obtain ⟨hU, -, -⟩ := ExRm.net_usable
  have hw := hU.good.wf
  refine ⟨hU, ExRm.intOk, ⟨sep_of_ok (cutGraph_wf hw _) (by decide +kernel) (by decide +kernel) (by decide +kernel), by decide +kernel⟩,
    ⟨sep_of_ok (g := Silent (CutGraph ExRm.net.g ["B"]) "D") (mute_wf (cutGraph_wf hw _) _) (by decide +kernel) (by decide +kernel) (by decide +kernel),
      by decide +kernel⟩, ?_, by decide +kernel, by decide +kernel⟩
  have hc := (C117_rule3_graph hw (I := ["D"]) (Z := ["A"]) (x := "B") (y := "U") (by decide +kernel) (by decide +kernel) (by decide +kernel)
    (by decide +kernel) (by simp) (by simp)).2 (by
      rintro ⟨z, hz, hd⟩
      rcases hd.cases_head with e | ⟨w, hw', -⟩
      · subst e; simp at hz
      · have h1 : ∀ e ∈ ExRm.net.g.edges, e.1 ≠ "B" := by decide +kernel
        exact h1 _ (mem_cutGraph.1 hw').1 rfl)
  rw [hc]
  exact sep_of_ok (cutGraph_wf hw _) (by decide +kernel) (by decide +kernel) (by decide +kernel)

end Verif

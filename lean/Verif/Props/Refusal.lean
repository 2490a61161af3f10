import Verif.Spec.Regime
import Verif.Lemmas.Regime
import Verif.Props.Answers

/-!
# C116: queries are refused exactly if the answer may depend on a missing policy
-/

namespace Verif
open Net Graph Relation Macid

theorem mechConn_iff {net : Net} (hw : net.g.WF) {I Z : List Node} {v y n : Node} (hv : v ∈ net.g.nodes) (hy : y ∈ net.g.nodes) (hn : n ∉ net.g.nodes)
    (hI : I ⊆ net.g.nodes) (hZ : Z ⊆ net.g.nodes) : net.MechConn I Z v y ↔ ((CutGraph net.g I).withParent n v).DConn n y (Z ++ I) := by
  have hw' := cutGraph_wf hw I
  have hZI : ∀ z ∈ Z ++ I, z ∈ (CutGraph net.g I).nodes := fun z hz => by
    rcases List.mem_append.1 hz with q | q
    · exact hZ q
    · exact hI q
  have key : ∀ n, n ∉ net.g.nodes → (((CutGraph net.g I).withParent n v).DConn n y (Z ++ I) ↔ Into (CutGraph net.g I) (Z ++ I) v y) := fun n hn =>
    (sourceExt_withParent (g := CutGraph net.g I) hn hv).dconn_iff hw' ⟨rfl, rfl⟩ hy hZI
  constructor
  · rintro ⟨n', hn', h⟩
    rw [key n hn, ← key n' hn']
    exact h
  · exact fun h => ⟨n, hn, h⟩

theorem cutMech_conn {net : Net} (hw : net.g.WF) (hm : MecFree net.g) {I Z : List Node} (hI : I ⊆ net.g.nodes) (hZ : Z ⊆ net.g.nodes) {mg : Graph}
    (h : net.IsMech I mg) {v y : Node} (hv : v ∈ net.g.nodes) (hy : y ∈ net.g.nodes) : mg.DConn (v ++ "mec") y (Z ++ I) ↔ net.MechConn I Z v y := by
  have hw' := cutGraph_wf hw I
  obtain ⟨n, hn⟩ := exists_fresh net.g.nodes
  have hZI : ∀ z ∈ Z ++ I, z ∈ (CutGraph net.g I).nodes := fun z hz => by
    rcases List.mem_append.1 hz with q | q
    · exact hZ q
    · exact hI q
  rw [mechConn_iff hw hv hy hn hI hZ, (sourceExt_withParent (g := CutGraph net.g I) hn hv).dconn_iff hw' ⟨rfl, rfl⟩ hy hZI]
  refine (sourceExt_mech (g := CutGraph net.g I) (mg := mg) hm (fun a b => ?_)).dconn_iff hw' ⟨hv, rfl⟩ hy hZI
  rw [h.2.2, mem_cutGraph]
  rfl

/-- **C116** The mechanism graph in which `query` looks for missing policies says whether a change of a CPD can be noticed at `y`. -/
theorem C116_mechanism_graph {net : Net} (hw : net.g.WF) (hn : NamesOk net.g) (pick : Pick) {I Z : List Node} (hI : I ⊆ net.g.nodes)
    (hZ : Z ⊆ net.g.nodes) {v y : Node} (hv : v ∈ net.g.nodes) (hy : y ∈ net.g.nodes) :
    ∃ mg mg' b, mechGraph net.g = .ok mg ∧ net.cutMech mg I = .ok mg' ∧ isDConnected pick mg' (v ++ "mec") y (Z ++ I) = .ok b ∧
      (b = true ↔ net.MechConn I Z v y) := by
  obtain ⟨mg, h1, h2, h3, h4⟩ := C17_mechanism_graph net.g hw hn
  obtain ⟨mg', k1, k2, k3, k4⟩ := cutMech_ok (net := net) (xs := I) h2 (fun x hx => hI hx)
  have hM : net.IsMech I mg' := by
    refine ⟨k2, fun x => by rw [k3, h3], fun u v => ?_⟩
    rw [k4, h4]
    constructor
    · rintro ⟨h | h, hn⟩
      · exact Or.inl ⟨h, fun hv => hn ⟨hv, h⟩⟩
      · exact Or.inr h
    · rintro (h | h)
      · exact ⟨Or.inl h.1, fun q => h.2 q.1⟩
      · refine ⟨Or.inr h, fun q => ?_⟩
        exact (mecFree_of_names hn).1 _ (hw.edgeNodes _ _ q.2).1 _ h.1 h.2
  have hs : v ++ "mec" ∈ mg'.nodes := (hM.2.1 _).2 (Or.inr ⟨v, hv, rfl⟩)
  have hz : Z ++ I ⊆ mg'.nodes := fun z hz => (hM.2.1 z).2 (Or.inl (by
    rcases List.mem_append.1 hz with q | q
    · exact hZ q
    · exact hI q))
  obtain ⟨b, e1, e2⟩ := isDConnected_spec hM.1 pick (t := y) hs hz
  exact ⟨mg, mg', b, h1, k1, e1, e2.trans (cutMech_conn hw (mecFree_of_names hn) hI hZ hM hv hy)⟩

/-- probability of an event together with the context, after an intervention -/
theorem PDo_at {n : Net} {int ctx : List (Node × Outcome)} (hin : ∀ p ∈ int, p.1 ∈ n.g.nodes) {z : Assign} (hz : (∀ p ∈ ctx, z p.1 = p.2) ∧ ∀ p ∈ int, z p.1 = p.2)
    (E : Assign → Bool) : n.PDo int (fun a => E a && Ctx ctx a) =
      (n.doBN int).W (BN.at_ (ctx.map (·.1) ++ int.map (·.1)) z (fun a => if E a then 1 else 0)) := by
  have hagree : ∀ a : Assign, (∀ v ∈ ctx.map (·.1) ++ int.map (·.1), a v = z v) ↔ (Ctx ctx a = true ∧ ∀ p ∈ int, a p.1 = p.2) := by
    intro a
    simp only [List.mem_append, List.mem_map, Ctx, List.all_eq_true, decide_eq_true_eq]
    constructor
    · intro h
      exact ⟨fun p hp => (h p.1 (Or.inl ⟨p, hp, rfl⟩)).trans (hz.1 p hp), fun p hp => (h p.1 (Or.inr ⟨p, hp, rfl⟩)).trans (hz.2 p hp)⟩
    · rintro ⟨h1, h2⟩ v (⟨p, hp, rfl⟩ | ⟨p, hp, rfl⟩)
      · rw [h1 p hp, hz.1 p hp]
      · rw [h2 p hp, hz.2 p hp]
  rw [show n.PDo int (fun a => E a && Ctx ctx a) = n.PDo int (fun a => E a && Ctx ctx a && decide (∀ p ∈ int, a p.1 = p.2)) from
    PDo_congr (fun a _ ha => by rw [decide_eq_true ha]; simp), PDo_eq_W hin]
  congr 1
  funext a
  unfold BN.at_
  simp only [hagree a]
  simp only [Bool.and_eq_true, decide_eq_true_eq]
  split_ifs <;> first | rfl | (exfalso; tauto)

/-- a possible context does not contradict the intervention -/
theorem PDo_witness {net : Net} {int ctx : List (Node × Outcome)} (hpos : net.PDo int (Ctx ctx) ≠ 0) :
    ∃ z : Assign, (∀ p ∈ ctx, z p.1 = p.2) ∧ ∀ p ∈ int, z p.1 = p.2 := by
  by_contra hn
  push Not at hn
  apply hpos
  have : net.PDo int (Ctx ctx) = net.PDo int (fun _ => false) := by
    apply PDo_congr
    intro a _ ha
    by_contra hca
    simp only [Bool.not_eq_false] at hca
    obtain ⟨p, hp, hne⟩ := hn a (by simpa [Ctx] using hca)
    exact hne (ha p hp)
  rw [this]
  unfold PDo
  simp only [Bool.false_eq_true, false_and, if_false]
  exact sumOver_zero _ _

theorem not_reached_of_sep {g : Graph} (hw : g.WF) {s t : Node} {Z : List Node} (hs : s ∈ g.nodes) (hZ : Z ⊆ g.nodes) (h : ¬ g.DConn s t Z) :
    ¬ Reached g Z [s] t := by
  obtain ⟨b, e1, e2⟩ := isDConnected_reached hw (fun _ _ => 0) (t := t) hs hZ
  obtain ⟨b', e3, e4⟩ := isDConnected_spec hw (fun _ _ => 0) (t := t) hs hZ
  rw [e1] at e3
  cases e3
  exact fun q => h (e4.1 (e2.2 q))

/-- **C116** If the mechanism of `v` is not connected to the queried nodes, the answer is the same for all CPDs of `v`. -/
theorem C116_independent {N N' : Net} (hG : N.Good) (hN : N.Normalised) (hG' : N'.Good) (hN' : N'.Normalised) {v : Node} (hv : v ∈ N.g.nodes)
    (hO : OnlyRules N [v] N') {int ctx : List (Node × Outcome)} (hi : N.IntOk int) (hc : ∀ p ∈ ctx, p.1 ∈ N.g.nodes) {q : List Node}
    (hq : ∀ y ∈ q, y ∈ N.g.nodes ∧ ¬ N.MechConn (int.map (·.1)) (ctx.map (·.1)) v y)
    (hpos : N.PDo int (Ctx ctx) ≠ 0) (hpos' : N'.PDo int (Ctx ctx) ≠ 0) (xs : List Outcome) :
    N.Given int ctx q xs = N'.Given int ctx q xs := by
  have hin : ∀ p ∈ int, p.1 ∈ N.g.nodes := fun p hp => (hi.2 p hp).1
  have hin' : ∀ p ∈ int, p.1 ∈ N'.g.nodes := fun p hp => by rw [hO.g]; exact hin p hp
  have hB := doBN_prob hG hN hi.1 (fun p hp => (hi.2 p hp).2.1)
  have hB' := doBN_prob hG' hN' hi.1 (fun p hp => by rw [hO.dom]; exact (hi.2 p hp).2.1)
  obtain ⟨z, hz⟩ := PDo_witness hpos
  obtain ⟨n, hn⟩ := exists_fresh N.g.nodes
  have hI : int.map (·.1) ⊆ N.g.nodes := fun x hx => by obtain ⟨p, hp, rfl⟩ := List.mem_map.1 hx; exact hin p hp
  have hC : ctx.map (·.1) ⊆ N.g.nodes := fun x hx => by obtain ⟨p, hp, rfl⟩ := List.mem_map.1 hx; exact hc p hp
  have hZ : ∀ w ∈ ctx.map (·.1) ++ int.map (·.1), w ∈ N.g.nodes := fun w hw => by
    rcases List.mem_append.1 hw with h | h
    · exact hC h
    · exact hI h
  have hw' := withParent_wf (g := CutGraph N.g (int.map (·.1))) (cutGraph_wf hG.wf _) hn hv
  have key := BN.irrelevant hB hB' (by show CutGraph N'.g _ = _; rw [hO.g]; rfl) (fun w _ => congrFun hO.dom w) (Ds := (· = v))
    (by
      intro w hw hne a _
      show (if w ∈ int.map (·.1) then _ else N'.kernel w a) = (if w ∈ int.map (·.1) then _ else N.kernel w a)
      split
      · rfl
      · exact hO.kernel (by simpa using hne) a)
    (G := (CutGraph N.g (int.map (·.1))).withParent n v) (Z := ctx.map (·.1) ++ int.map (·.1)) (S := [n]) (T := q)
    (fun u w huw => withParent_edge.2 (Or.inr (show (CutGraph N.g (int.map (·.1))).Edge u w from huw))) hZ
    (fun w _ e => ⟨n, by simp, fun q => hn (hZ n q), withParent_edge.2 (Or.inl ⟨rfl, e⟩)⟩)
    (fun t ht => not_reached_of_sep hw' List.mem_cons_self (fun w hw => List.mem_cons_of_mem _ (hZ w hw)) (fun h => (hq t ht).2 ⟨n, hn, h⟩)) z
    (h := fun a => if Has q xs a then 1 else 0)
    (by
      intro a b hab
      show (if Has q xs a = true then (1 : Rat) else 0) = _
      rw [has_depends q xs a b (fun v hv => hab v (Or.inr ⟨hv, (hq v hv).1⟩))])
  have e1 := PDo_at hin hz (Has q xs)
  have e2 := PDo_at (n := N') hin' hz (Has q xs)
  have e3 : N.PDo int (Ctx ctx) = _ := (PDo_congr (by simp)).trans (PDo_at hin hz (fun _ => true))
  have e4 : N'.PDo int (Ctx ctx) = _ := (PDo_congr (by simp)).trans (PDo_at (n := N') hin' hz (fun _ => true))
  simp only [if_true] at e3 e4
  rw [← e1, ← e2, ← e3, ← e4] at key
  unfold Given
  rw [div_eq_div_iff hpos hpos']
  exact key

/-- **C116** The same for the answers of `query`. -/
theorem C116_same_answer {N N' : Net} (hU : N.Usable) (hU' : N'.Usable) {v : Node} (hv : v ∈ N.g.nodes) (hO : OnlyRules N [v] N')
    {pick pick' : Pick} {ord : List Node → List Node} (hord : ∀ l, (ord l).Perm l) {int ctx : List (Node × Outcome)} (hi : N.IntOk int) (hi' : N'.IntOk int)
    {q : List Node} (hq : ∀ y ∈ q, ¬ N.MechConn (int.map (·.1)) (ctx.map (·.1)) v y) {f f' : Factor}
    (h : (N.query pick ord q ctx int).2 = .ok f) (h' : (N'.query pick' ord q ctx int).2 = .ok f')
    (hpos : N.PDo int (Ctx ctx) ≠ 0) (hpos' : N'.PDo int (Ctx ctx) ≠ 0) {a : Assign} (ha : N.InDom a) : f.entry a = f'.entry a := by
  obtain ⟨hctx, _, hqn, _⟩ := C38_answered_only_if_legal hU hord hi h
  have e : ∀ b : Assign, decide (∀ v ∈ q, b v = a v) = Has q (q.map a) b := fun b => by
    unfold Has
    rw [decide_eq_decide, List.map_inj_left]
  rw [answer_entry hU hord hi h hpos ha, answer_entry hU' hord hi' h' hpos' ((hO.inDom a).2 ha)]
  congr 1
  simp only [e]
  exact C116_independent hU.good hU.normalised hU'.good hU'.normalised hv hO hi (fun p hp => (hctx p hp).1) (fun y hy => ⟨hqn y hy, hq y hy⟩) hpos hpos' _

/-- **C116** If it is connected, the diagram can be given CPDs such that another CPD of `v` changes the answer: an outcome of `y` that was
impossible becomes possible. -/
theorem C116_dependent {net : Net} (hf : net.Fresh) (hc : net.m.Consistent) (hb : net.base = Macid.new ∨ net.base = Macid.newCid) (hst : net.Staffed)
    {I Z : List Node} {v y : Node} (hv : v ∈ net.g.nodes) (hy : y ∈ net.g.nodes) (hI : I ⊆ net.g.nodes) (hnd : I.Nodup) (hZ : Z ⊆ net.g.nodes)
    (h : net.MechConn I Z v y) :
    ∃ rels N N', net.addCpds rels = (N, .ok ()) ∧ N.m = net.m ∧ N.Usable ∧ N'.Usable ∧ OnlyRules N [v] N' ∧
      ∃ int ctx x, int.map (·.1) = I ∧ ctx.map (·.1) = Z ∧ N.IntOk int ∧ N'.IntOk int ∧ (∀ p ∈ ctx, p.2 ∈ N.dom p.1) ∧ x ∈ N.dom y ∧
        0 < N.PDo int (Ctx ctx) ∧ 0 < N'.PDo int (Ctx ctx) ∧ N.Given int ctx [y] [x] = 0 ∧ 0 < N'.Given int ctx [y] [x] := by
  obtain ⟨n, hn, hD⟩ := h
  obtain ⟨rels, N, N', P, e1, e2, hO, hT, hlast, t1, t2⟩ := regimes hf hc hb hst hv hy hn hI hZ hD
  have hg : N.g = net.g := by show N.m.g = net.m.g; rw [e2]
  have hg' : N'.g = net.g := by rw [hO.g, hg]
  have hT1 : P.Tuning (CutGraph N.g I) n v (· ∈ Z ++ I) := by rw [hg]; exact hT
  have hT2 : P.Tuning (CutGraph N'.g I) n v (· ∈ Z ++ I) := by rw [hg']; exact hT
  have hI1 : I ⊆ N.g.nodes := by rw [hg]; exact hI
  have hI2 : I ⊆ N'.g.nodes := by rw [hg']; exact hI
  have hZ1 : Z ⊆ N.g.nodes := by rw [hg]; exact hZ
  have hZ2 : Z ⊆ N'.g.nodes := by rw [hg']; exact hZ
  have eC : Ctx (P.held Z) = fun a => decide (∀ z ∈ Z, a z = P.quiet z) := by
    funext a
    unfold Ctx
    rw [Bool.eq_iff_iff, List.all_eq_true, decide_eq_true_eq]
    simp [Plan.held]
  have eE : (fun a => Has [y] [P.quiet y] a && Ctx (P.held Z) a) = fun a => decide (a y = P.quiet y ∧ ∀ z ∈ Z, a z = P.quiet z) := by
    rw [eC]
    funext a
    rw [Bool.decide_and]
    simp [Has]
  have s1 : 0 < N.PDo (P.held I) (Ctx (P.held Z)) := by rw [eC]; exact t1.sees hT1 hI1 hnd hZ1
  have s2 : 0 < N'.PDo (P.held I) (Ctx (P.held Z)) := by rw [eC]; exact t2.sees hT2 hI2 hnd hZ2
  refine ⟨rels, N, N', e1, e2, t1.usable, t2.usable, hO, P.held I, P.held Z, P.quiet y, P.held_keys I, P.held_keys Z, t1.intOk hI1 hnd,
    t2.intOk hI2 hnd, fun p hp => ?_, t1.quiet_dom (by rw [hg]; exact hy), s1, s2, ?_, ?_⟩
  · obtain ⟨z, hz, rfl⟩ := List.mem_map.1 hp
    exact t1.quiet_dom (hZ1 hz)
  · unfold Given
    rw [eE, t1.never hT1 hI1 hnd hlast, zero_div]
  · unfold Given
    rw [eE]
    exact div_pos (t2.perhaps hT2 hI2 hnd hZ2 (by rw [hg']; exact hy)) s2

/-- **C116** Altogether: the mechanism of `v` is connected to `y` exactly if, for some CPDs of the diagram and some change of the CPD of `v`
alone, the answer changes. -/
theorem C116_iff {net : Net} (hf : net.Fresh) (hc : net.m.Consistent) (hb : net.base = Macid.new ∨ net.base = Macid.newCid) (hst : net.Staffed)
    {I Z : List Node} {v y : Node} (hv : v ∈ net.g.nodes) (hy : y ∈ net.g.nodes) (hI : I ⊆ net.g.nodes) (hnd : I.Nodup) (hZ : Z ⊆ net.g.nodes) :
    net.MechConn I Z v y ↔ ∃ rels N N', net.addCpds rels = (N, .ok ()) ∧ N.m = net.m ∧ N.Usable ∧ N'.Usable ∧ OnlyRules N [v] N' ∧
      ∃ int ctx x, int.map (·.1) = I ∧ ctx.map (·.1) = Z ∧ N.IntOk int ∧ 0 < N.PDo int (Ctx ctx) ∧ 0 < N'.PDo int (Ctx ctx) ∧
        N.Given int ctx [y] [x] ≠ N'.Given int ctx [y] [x] := by
  constructor
  · intro h
    obtain ⟨rels, N, N', k1, k2, k3, k4, k5, int, ctx, x, l1, l2, l3, -, -, -, l7, l8, l9, l10⟩ := C116_dependent hf hc hb hst hv hy hI hnd hZ h
    exact ⟨rels, N, N', k1, k2, k3, k4, k5, int, ctx, x, l1, l2, l3, l7, l8, by rw [l9]; exact ne_of_lt l10⟩
  · rintro ⟨rels, N, N', k1, k2, k3, k4, k5, int, ctx, x, l1, l2, l3, l4, l5, l6⟩
    by_contra hn
    have hg : N.g = net.g := by show N.m.g = net.m.g; rw [k2]
    refine l6 (C116_independent k3.good k3.normalised k4.good k4.normalised (by rw [hg]; exact hv) k5 l3 (fun p hp => ?_) (fun t ht => ?_)
      (ne_of_gt l4) (ne_of_gt l5) _)
    · rw [hg]; exact hZ (l2 ▸ List.mem_map_of_mem hp)
    · rw [List.mem_singleton.1 ht, l1, l2]
      refine ⟨by rw [hg]; exact hy, fun q => hn ?_⟩
      unfold MechConn at q ⊢
      rw [hg] at q
      exact q

/-- **C116** So `query` refuses to answer because of a missing policy only if the answer may depend on it: for some decision `d` without
policy and some queried `y`, the same diagram has CPDs with which two policies of `d` lead to different answers, for a context and an
intervention on the same variables. -/
theorem C116_refused {net : Net} (hU : net.Usable) (hn : NamesOk net.g) {pick : Pick} {q : List Node} {ctx int : List (Node × Outcome)}
    (hq : ∀ y ∈ q, y ∈ net.g.nodes) (hctx : ∀ p ∈ ctx, p.1 ∈ net.g.nodes) (hint : ∀ p ∈ int, p.1 ∈ net.g.nodes) (hnd : (int.map (·.1)).Nodup)
    {e : Err} (h : net.policiesOk pick q ctx int = .error e) :
    e = .value ∧ ∃ d ∈ net.m.decisions, net.undecided d = true ∧ ∃ y ∈ q, ∃ rels N N',
      (⟨net.m, [], [], [], net.base⟩ : Net).addCpds rels = (N, .ok ()) ∧ N.m = net.m ∧ N.Usable ∧ N'.Usable ∧ OnlyRules N [d] N' ∧
      ∃ int' ctx', int'.map (·.1) = int.map (·.1) ∧ ctx'.map (·.1) = ctx.map (·.1) ∧ N.IntOk int' ∧ N'.IntOk int' ∧
        0 < N.PDo int' (Ctx ctx') ∧ 0 < N'.PDo int' (Ctx ctx') ∧ (∃ x ∈ N.dom y, N.Given int' ctx' [y] [x] ≠ N'.Given int' ctx' [y] [x]) ∧
        ∀ p ord p' ord' f f', (∀ l, (ord l).Perm l) → (∀ l, (ord' l).Perm l) → (N.query p ord [y] ctx' int').2 = .ok f →
          (N'.query p' ord' [y] ctx' int').2 = .ok f' → f ≠ f' := by
  have hdec : ∀ d ∈ net.m.decisions, d ∈ net.g.nodes := fun d hd => hU.roles.nodes d (Or.inl hd)
  obtain ⟨mg, hM1, hM2, hM3, k1, k2⟩ := C42_policy_check hU hn pick (q := q) hctx hint
  have hM : net.IsMech (int.map (·.1)) mg := ⟨hM1, hM2, hM3⟩
  have hI : int.map (·.1) ⊆ net.g.nodes := fun x hx => by obtain ⟨p, hp, rfl⟩ := List.mem_map.1 hx; exact hint p hp
  have hC : ctx.map (·.1) ⊆ net.g.nodes := fun x hx => by obtain ⟨p, hp, rfl⟩ := List.mem_map.1 hx; exact hctx p hp
  have hno : ¬ (∀ d ∈ net.m.decisions, net.undecided d = true → ∀ t ∈ q, ¬ mg.DConn (d ++ "mec") t (ctx.map (·.1) ++ int.map (·.1))) := by
    intro q
    rw [k1 q] at h
    simp at h
  refine ⟨by rw [k2 hno] at h; exact (Except.error.inj h).symm, ?_⟩
  push Not at hno
  obtain ⟨d, hd, hu, y, hy, hD⟩ := hno
  have hconn := (cutMech_conn hU.good.wf (mecFree_of_names hn) hI hC hM (hdec d hd) (hq y hy)).1 hD
  obtain ⟨rels, N, N', e1, e2, e3, e4, e5, int', ctx', x, l1, l2, l3, l4, l5, l6, l7, l8, l9, l10⟩ :=
    C116_dependent (net := ⟨net.m, [], [], [], net.base⟩) ⟨rfl, rfl, rfl⟩ hU.roles hU.base ⟨hU.staffed.both, hU.staffed.owns⟩ (hdec d hd) (hq y hy) hI hnd hC hconn
  refine ⟨d, hd, hu, y, hy, rels, N, N', e1, e2, e3, e4, e5, int', ctx', l1, l2, l3, l4, l7, l8, ⟨x, l6, by rw [l9]; exact ne_of_lt l10⟩,
    fun p ord p' ord' f f' ho ho' hf hf' he => ?_⟩
  obtain ⟨b, hb1, hb2⟩ := exists_inDom e3.good (fun _ => x) (· = y) (fun u hu _ => by rw [hu]; exact l6)
  have f1 := answer_entry e3 ho l3 hf (ne_of_gt l7) hb1
  have f2 := answer_entry e4 ho' l4 hf' (ne_of_gt l8) ((e5.inDom b).2 hb1)
  have eE : ∀ c : Assign, decide (∀ w ∈ [y], c w = b w) = Has [y] [x] c := fun c => by
    simp [Has, hb2 y rfl]
  simp only [eE] at f1 f2
  rw [he] at f1
  rw [f1] at f2
  have f3 := Option.some.inj f2
  change N.Given int' ctx' [y] [x] = N'.Given int' ctx' [y] [x] at f3
  rw [l9] at f3
  exact absurd f3 (ne_of_lt l10)

/-- the example diagram with a uniform rule for D -/
def Ex.netU : Net := (Ex.netD.imputeRandom "D").1

theorem Ex.netU_only : Ex.netU.Usable ∧ OnlyRules Ex.netD ["D"] Ex.netU := by
  obtain ⟨n, c, h1, h2, h3, -⟩ := imputeRandom_usable Ex.netD_usable.1 (d := "D") (by decide +kernel)
  have hU : Ex.netU = n := by unfold Ex.netU; rw [h1]
  rw [hU]
  exact ⟨h2, h3⟩

/-- the test of the policy check -/
def Ex.looks (I Z : List Node) (v y : Node) : Bool :=
  match mechGraph Ex.netD.g with
  | .error _ => false
  | .ok mg =>
    match Ex.netD.cutMech mg I with
    | .error _ => false
    | .ok mg' =>
      match isDConnected (fun _ _ => 0) mg' (v ++ "mec") y (Z ++ I) with
      | .error _ => false
      | .ok b => b

theorem Ex.looks_spec {I Z : List Node} {v y : Node} (h : ∀ x ∈ v :: y :: (I ++ Z), x ∈ Ex.netD.g.nodes) :
    Ex.netD.MechConn I Z v y ↔ Ex.looks I Z v y = true := by
  have hn : NamesOk Ex.netD.g := ⟨by decide +kernel, by decide +kernel⟩
  obtain ⟨mg, mg', b, e1, e2, e3, e4⟩ := C116_mechanism_graph Ex.netD_usable.1.good.wf hn (fun _ _ => 0) (I := I) (Z := Z) (v := v) (y := y)
    (fun x hx => h x (by simp [hx])) (fun x hx => h x (by simp [hx])) (h v (by simp)) (h y (by simp))
  unfold Ex.looks
  rw [e1]; simp only [e2, e3, e4]

theorem Ex.net_policies : Ex.net.policiesOk (fun _ _ => 0) ["U"] [] [] = .error .value ∧
    Ex.net.policiesOk (fun _ _ => 0) ["A"] [] [] = .ok () ∧ Ex.net.policiesOk (fun _ _ => 0) ["U"] [] [("D", 0)] = .ok () :=
  ⟨by decide +kernel, by decide +kernel, by decide +kernel⟩

theorem Ex.netU_queries : (Ex.netD.query (fun _ _ => 0) id ["U"] [] []).2 ≠ (Ex.netU.query (fun _ _ => 0) id ["U"] [] []).2 ∧
    (Ex.netD.query (fun _ _ => 0) id ["A"] [] []).2 = (Ex.netU.query (fun _ _ => 0) id ["A"] [] []).2 :=
  ⟨by decide +kernel, by decide +kernel⟩

/-- **C116** The hypotheses are met: in A → D → U ← A the rule of D does not matter for A, and it matters for U unless D is set; two rules
of D; `query` refuses P(U) without a rule of D and answers P(A), and P(U) after an intervention on D. -/
theorem C116_example :
    (Ex.net0.Fresh ∧ Ex.net0.m.Consistent ∧ Ex.net0.base = Macid.new ∧ Ex.net0.Staffed) ∧
    (Ex.netD.Usable ∧ Ex.netU.Usable ∧ OnlyRules Ex.netD ["D"] Ex.netU ∧ "D" ∈ Ex.netD.g.nodes ∧ Ex.netD.IntOk [] ∧ Ex.netU.IntOk []) ∧
    (¬ Ex.netD.MechConn [] [] "D" "A" ∧ Ex.netD.MechConn [] [] "D" "U" ∧ ¬ Ex.netD.MechConn ["D"] [] "D" "U" ∧ Ex.netD.MechConn [] ["U"] "D" "A") ∧
    (Ex.netD.query (fun _ _ => 0) id ["U"] [] []).2 ≠ (Ex.netU.query (fun _ _ => 0) id ["U"] [] []).2 ∧
    (Ex.netD.query (fun _ _ => 0) id ["A"] [] []).2 = (Ex.netU.query (fun _ _ => 0) id ["A"] [] []).2 ∧
    (Ex.net.Usable ∧ NamesOk Ex.net.g ∧ Ex.net.policiesOk (fun _ _ => 0) ["U"] [] [] = .error .value ∧
      Ex.net.policiesOk (fun _ _ => 0) ["A"] [] [] = .ok () ∧ Ex.net.policiesOk (fun _ _ => 0) ["U"] [] [("D", 0)] = .ok ()) := by
  refine ⟨⟨Ex.net0_fresh, Ex.m_consistent, rfl, staffed_of (net := Ex.net0) (by decide +kernel)⟩,
    ⟨Ex.netD_usable.1, Ex.netU_only.1, Ex.netU_only.2, by decide +kernel, ⟨by simp, by simp⟩, ⟨by simp, by simp⟩⟩,
    ⟨?_, ?_, ?_, ?_⟩, Ex.netU_queries.1, Ex.netU_queries.2, Ex.net_usable, ⟨by decide +kernel, by decide +kernel⟩, Ex.net_policies⟩
  · rw [Ex.looks_spec (by decide +kernel)]; decide +kernel
  · rw [Ex.looks_spec (by decide +kernel)]; decide +kernel
  · rw [Ex.looks_spec (by decide +kernel)]; decide +kernel
  · rw [Ex.looks_spec (by decide +kernel)]; decide +kernel

end Verif

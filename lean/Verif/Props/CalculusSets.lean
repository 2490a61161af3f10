import Verif.Props.Calculus
import Verif.Lemmas.Laws

/-!
# The rules of the do-calculus for sets of variables (C117)
-/

namespace Verif
open Relation Graph Net

/-- edges that leave observed nodes do not matter -/
theorem ball_silent {G G' : Graph} {Z : List Node} {I : Node → Dir → Prop} (he : ∀ u v, G.Edge u v → u ∉ Z → G'.Edge u v) {v : Node} {d : Dir}
    (h : Ball G Z I v d) : (v ∈ Z ∧ d = .up) ∨ Ball G' Z I v d := by
  have hA : ∀ {v}, G.AnZ Z v → G'.AnZ Z v := by
    rintro v ⟨z, hz, hd⟩
    induction hd using ReflTransGen.head_induction_on with
    | refl => exact ⟨z, hz, .refl⟩
    | head h1 _ ih =>
      rename_i a c _
      by_cases ha : a ∈ Z
      · exact ⟨a, ha, .refl⟩
      · obtain ⟨z', q1, q2⟩ := ih
        exact ⟨z', q1, .head (he _ _ h1 ha) q2⟩
  induction h with
  | init h => exact .inr (.init h)
  | upPar _ h1 h2 ih =>
    rename_i v p _
    by_cases hp : p ∈ Z
    · exact .inl ⟨hp, rfl⟩
    · exact .inr (.upPar (ih.resolve_left (fun q => h1 q.1)) h1 (he _ _ h2 hp))
  | upCh _ h1 h2 ih => exact .inr (.upCh (ih.resolve_left (fun q => h1 q.1)) h1 (he _ _ h2 h1))
  | downCh _ h1 h2 ih => exact .inr (.downCh (ih.resolve_left (fun q => h1 q.1)) h1 (he _ _ h2 h1))
  | downPar _ h1 h2 ih =>
    rename_i v p _
    by_cases hp : p ∈ Z
    · exact .inl ⟨hp, rfl⟩
    · exact .inr (.downPar (ih.resolve_left (fun q => by simp at q)) (hA h1) (he _ _ h2 hp))

theorem silentAll_edge {g : Graph} {X : List Node} {u v : Node} : (SilentAll g X).Edge u v ↔ g.Edge u v ∧ u ∉ X := by
  simp [SilentAll, Edge]

theorem silentAll_wf {g : Graph} (hw : g.WF) (X : List Node) : (SilentAll g X).WF := by
  refine ⟨hw.nodesNodup, hw.edgesNodup.filter _, fun u v h => hw.edgeNodes u v (silentAll_edge.1 h).1, fun v h => hw.acyclic v ?_⟩
  exact TransGen.mono (fun a b h => (silentAll_edge.1 h).1) _ _ h

/-- weak union in terms of d-connection, followed by a change of edges that leave observed nodes -/
theorem dconn_step {G G' : Graph} (hw : G.WF) (hw' : G'.WF) {Z Z' W : List Node} {y x : Node} (hz : ∀ v, v ∈ Z' ↔ v ∈ Z ∨ v ∈ W)
    (he : ∀ u v, G'.Edge u v → u ∉ Z' → G.Edge u v) (hx : ¬ G.DConn x y Z) (hW : ∀ w ∈ W, ¬ G.DConn w y Z) : ¬ G'.DConn x y Z' := by
  intro h
  obtain ⟨hxZ, d, hb⟩ := (ball_iff_dconn hw').2 (dconn_symm h)
  rcases ball_silent he hb with q | q
  · exact hxZ q.1
  · rcases ball_drop (Z := Z) (W := W) (ball_congr (fun v => by rw [hz]; simp) q) with ⟨w, h1, h2, d', h3⟩ | h3
    · exact hW w h1 (dconn_symm ((ball_iff_dconn hw).1 ⟨h2, d', h3⟩))
    · exact hx (dconn_symm ((ball_iff_dconn hw).1 ⟨fun q => hxZ ((hz x).2 (.inl q)), d, h3⟩))

theorem PDo_set {net : Net} {int int' : List (Node × Outcome)} (hp : ∀ p, p ∈ int ↔ p ∈ int') (E : Assign → Bool) : net.PDo int E = net.PDo int' E := by
  unfold PDo
  have e1 : ∀ a : Assign, (∀ p ∈ int, a p.1 = p.2) ↔ ∀ p ∈ int', a p.1 = p.2 := fun a => forall_congr' (fun p => by rw [hp])
  have e2 : ∀ v, v ∈ int.map (·.1) ↔ v ∈ int'.map (·.1) := fun v => by simp only [List.mem_map, hp]
  simp only [e1, e2]

theorem given_perm {net : Net} {int int' : List (Node × Outcome)} (hp : ∀ p, p ∈ int ↔ p ∈ int') (ctx : List (Node × Outcome)) (q : List Node)
    (xs : List Outcome) : net.Given int ctx q xs = net.Given int' ctx q xs := by
  unfold Given
  rw [PDo_set hp, PDo_set hp]

/-- **C117** Rule 2 for several variables: they can be moved from the context to the intervention if they are separated from the queried
variables when the edges out of them are removed; the context keeps positive probability. -/
theorem C117_rule2_set {net : Net} (hG : net.Good) (hN : net.Normalised) {more : List (Node × Outcome)} {int ctx : List (Node × Outcome)}
    (hi : net.IntOk (more ++ int)) (hc : ∀ p ∈ ctx, p.1 ∈ net.g.nodes) (hmc : ∀ x ∈ more.map (·.1), x ∉ ctx.map (·.1)) {q : List Node}
    (hq : ∀ y ∈ q, y ∈ net.g.nodes ∧ ∀ x ∈ more.map (·.1), y ≠ x ∧
      ¬ (SilentAll (CutGraph net.g (int.map (·.1))) (more.map (·.1))).DConn x y (ctx.map (·.1) ++ int.map (·.1)))
    (hpos : net.PDo int (Ctx (more ++ ctx)) ≠ 0) :
    net.PDo (more ++ int) (Ctx ctx) ≠ 0 ∧ ∀ xs, net.Given int (more ++ ctx) q xs = net.Given (more ++ int) ctx q xs := by
  induction more generalizing int with
  | nil => exact ⟨hpos, fun _ => rfl⟩
  | cons p more ih =>
    obtain ⟨x, v⟩ := p
    have hmem : ∀ p, p ∈ more ++ (x, v) :: int ↔ p ∈ (x, v) :: more ++ int := fun p => by simp only [List.mem_append, List.mem_cons]; tauto
    have hnd : (((x, v) :: more ++ int).map (·.1)).Nodup := hi.1
    have hperm : (more ++ (x, v) :: int).Perm ((x, v) :: more ++ int) := List.perm_middle
    have hi' : net.IntOk (more ++ (x, v) :: int) := ⟨(hperm.map _).nodup_iff.2 hi.1, fun p hp => hi.2 p ((hmem p).1 hp)⟩
    have hi1 : net.IntOk ((x, v) :: int) := ⟨(List.sublist_append_right more _ |>.map _).nodup hi'.1, fun p hp => hi'.2 p (by simp only [List.mem_append]; exact .inr hp)⟩
    have hn : ∀ p ∈ (x, v) :: more ++ int, p.1 ∈ net.g.nodes := fun p hp => (hi.2 p hp).1
    have hxm : x ∉ more.map (·.1) ∧ x ∉ int.map (·.1) := by
      have : x ∉ (more ++ int).map (·.1) := (List.nodup_cons.1 hnd).1
      rw [List.map_append, List.mem_append, not_or] at this
      exact this
    have hw := hG.wf
    have hwc := cutGraph_wf hw (int.map (·.1))
    obtain ⟨r1, r2⟩ := C117_rule2 hG hN (x := x) (v := v) (ctx := more ++ ctx) hi1 (fun p hp => by
        rcases List.mem_append.1 hp with h | h
        · exact hn p (by simp [h])
        · exact hc p h) (by
        rw [List.map_append, List.mem_append, not_or]
        exact ⟨hxm.1, hmc x (by simp)⟩) (q := q) (fun y hy => ⟨(hq y hy).1, ((hq y hy).2 x (by simp)).1, by
        refine dconn_step (G := SilentAll (CutGraph net.g (int.map (·.1))) (((x, v) :: more).map (·.1))) (silentAll_wf hwc _)
          (mute_wf hwc x) (Z := ctx.map (·.1) ++ int.map (·.1)) (W := more.map (·.1)) (fun v => ?_) (fun u w h hu => ?_)
          ((hq y hy).2 x (by simp)).2 (fun w hw => ((hq y hy).2 w (by simp only [List.map_cons, List.mem_cons]; exact .inr hw)).2)
        · simp only [List.map_append, List.mem_append]; tauto
        · have h' := mute_edge.1 h
          refine silentAll_edge.2 ⟨h'.1, fun hm => ?_⟩
          rcases List.mem_cons.1 hm with e | e
          · exact h'.2 e
          · exact hu (by simp only [List.map_append, List.mem_append]; exact .inl (.inl e))⟩) (by simpa using hpos)
    obtain ⟨s1, s2⟩ := ih hi' (fun z hz => hmc z (by simp only [List.map_cons, List.mem_cons]; exact .inr hz)) (fun y hy => ⟨(hq y hy).1, fun z hz =>
      ⟨((hq y hy).2 z (by simp only [List.map_cons, List.mem_cons]; exact .inr hz)).1, by
        refine dconn_step (G := SilentAll (CutGraph net.g (int.map (·.1))) (((x, v) :: more).map (·.1))) (silentAll_wf hwc _)
          (silentAll_wf (cutGraph_wf hw _) _) (Z := ctx.map (·.1) ++ int.map (·.1)) (W := [x]) (fun v => ?_) (fun u w h hu => ?_)
          ((hq y hy).2 z (by simp only [List.map_cons, List.mem_cons]; exact .inr hz)).2
          (fun w hw => by rw [List.mem_singleton.1 hw]; exact ((hq y hy).2 x (by simp)).2)
        · simp only [List.map_cons, List.mem_append, List.mem_cons, List.not_mem_nil, or_false]; tauto
        · obtain ⟨h1, h2⟩ := silentAll_edge.1 h
          obtain ⟨h3, h4⟩ := mem_cutGraph.1 h1
          simp only [List.map_cons, List.mem_cons, not_or] at h4
          refine silentAll_edge.2 ⟨mem_cutGraph.2 ⟨h3, h4.2⟩, fun hm => ?_⟩
          rcases List.mem_cons.1 hm with e | e
          · exact hu (by simp only [List.map_cons, List.mem_append, List.mem_cons]; exact .inr (.inl e))
          · exact h2 e⟩⟩) r1
    refine ⟨by rw [← PDo_set hmem]; exact s1, fun xs => ?_⟩
    rw [← given_perm hmem, ← s2 xs]
    exact r2 xs

/-- new edges from `n` to several nodes: the connections are those of the single edges -/
theorem reached_many {g : Graph} {n t : Node} (hn : n ∉ g.nodes) (hw : g.WF) {Z X : List Node} (hX : X ⊆ g.nodes) (htn : t ≠ n)
    (h : Reached ⟨n :: g.nodes, X.map (fun x => (n, x)) ++ g.edges⟩ Z [n] t) : ∃ x ∈ X, Reached (g.withParent n x) Z [n] t := by
  set G : Graph := ⟨n :: g.nodes, X.map (fun x => (n, x)) ++ g.edges⟩ with hGdef
  have hE : ∀ {a b}, G.Edge a b ↔ (a = n ∧ b ∈ X) ∨ g.Edge a b := by
    intro a b
    simp only [hGdef, Edge, List.mem_append, List.mem_map, Prod.mk.injEq]
    constructor
    · rintro (⟨x, hx, e1, e2⟩ | h')
      · exact .inl ⟨e1.symm, e2 ▸ hx⟩
      · exact .inr h'
    · rintro (⟨e, h'⟩ | h')
      · exact .inl ⟨b, h', e.symm, rfl⟩
      · exact .inr h'
  have hpn : ∀ {a b}, g.Edge a b → a ≠ n ∧ b ≠ n := fun h => ⟨fun e => hn (e ▸ (hw.edgeNodes _ _ h).1), fun e => hn (e ▸ (hw.edgeNodes _ _ h).2)⟩
  have hbn : ∀ {a b}, G.Edge a b → b ≠ n := fun h => by
    rcases hE.1 h with q | q
    · exact fun e => hn (hX (e ▸ q.2))
    · exact (hpn q).2
  obtain ⟨ht, d, hb⟩ := h
  have hA : ∀ {v x}, v ≠ n → G.AnZ Z v → (g.withParent n x).AnZ Z v := by
    rintro v x hv ⟨z, hz, hd⟩
    refine ⟨z, hz, ?_⟩
    clear hz
    induction hd using ReflTransGen.head_induction_on with
    | refl => exact .refl
    | head h1 _ ih =>
      rcases hE.1 h1 with q | q
      · exact absurd q.1 hv
      · exact .head (withParent_edge.2 (.inr q)) (ih (hpn q).2)
  have key : ∀ v d, Ball G Z (fun w d => w ∈ [n] ∧ d = .up) v d →
      (v = n ∧ d = .up) ∨ (v ≠ n ∧ ∃ x ∈ X, Ball (g.withParent n x) Z (fun w d => w ∈ [n] ∧ d = .up) v d) := by
    intro v d hb
    induction hb with
    | init h => exact .inl ⟨List.mem_singleton.1 h.1, h.2⟩
    | upPar _ h1 h2 ih =>
      rcases ih with ih | ⟨ih, x, hx, hb⟩
      · exact absurd ih.1 (hbn h2)
      · rcases hE.1 h2 with q | q
        · exact .inl ⟨q.1, rfl⟩
        · exact .inr ⟨(hpn q).1, x, hx, .upPar hb h1 (withParent_edge.2 (.inr q))⟩
    | upCh _ h1 h2 ih =>
      refine .inr ⟨hbn h2, ?_⟩
      rcases ih with ⟨rfl, -⟩ | ⟨ih, x, hx, hb⟩
      · rcases hE.1 h2 with q | q
        · exact ⟨_, q.2, .upCh (.init ⟨by simp, rfl⟩) h1 (withParent_edge.2 (.inl ⟨rfl, rfl⟩))⟩
        · exact absurd rfl (hpn q).1
      · rcases hE.1 h2 with q | q
        · exact absurd q.1 ih
        · exact ⟨x, hx, .upCh hb h1 (withParent_edge.2 (.inr q))⟩
    | downCh _ h1 h2 ih =>
      refine .inr ⟨hbn h2, ?_⟩
      rcases ih with ⟨-, e⟩ | ⟨ih, x, hx, hb⟩
      · simp at e
      · rcases hE.1 h2 with q | q
        · exact absurd q.1 ih
        · exact ⟨x, hx, .downCh hb h1 (withParent_edge.2 (.inr q))⟩
    | downPar _ h1 h2 ih =>
      rcases ih with ⟨-, e⟩ | ⟨ih, x, hx, hb⟩
      · simp at e
      · rcases hE.1 h2 with q | q
        · exact .inl ⟨q.1, rfl⟩
        · exact .inr ⟨(hpn q).1, x, hx, .downPar hb (hA ih h1) (withParent_edge.2 (.inr q))⟩
  rcases key t d hb with ⟨e, -⟩ | ⟨-, x, hx, hb⟩
  · exact absurd e htn
  · exact ⟨x, hx, ht, d, hb⟩

/-- **C117** Rule 3 for several variables: setting them makes no difference for queried variables that changes of their CPDs cannot reach. -/
theorem C117_rule3_set {net : Net} (hG : net.Good) (hN : net.Normalised) {more int ctx : List (Node × Outcome)}
    (hi : net.IntOk (more ++ int)) (hc : ∀ p ∈ ctx, p.1 ∈ net.g.nodes) {q : List Node}
    (hq : ∀ y ∈ q, y ∈ net.g.nodes ∧ ∀ x ∈ more.map (·.1), ¬ net.MechConn (int.map (·.1)) (ctx.map (·.1)) x y)
    (hpos : net.PDo int (Ctx ctx) ≠ 0) (hpos' : net.PDo (more ++ int) (Ctx ctx) ≠ 0) (xs : List Outcome) :
    net.Given (more ++ int) ctx q xs = net.Given int ctx q xs := by
  have hnd : (more.map (·.1) ++ int.map (·.1)).Nodup := by rw [← List.map_append]; exact hi.1
  have hi1 : net.IntOk int := ⟨(List.nodup_append.1 hnd).2.1, fun p hp => hi.2 p (by simp [hp])⟩
  have hin : ∀ p ∈ int, p.1 ∈ net.g.nodes := fun p hp => (hi1.2 p hp).1
  have hin' : ∀ p ∈ more ++ int, p.1 ∈ net.g.nodes := fun p hp => (hi.2 p hp).1
  have hmn : more.map (·.1) ⊆ net.g.nodes := names_sub (fun p hp => hin' p (by simp [hp]))
  have hB := doBN_prob hG hN hi1.1 (fun p hp => (hi1.2 p hp).2.1)
  have hB' := doBN_prob hG hN hi.1 (fun p hp => (hi.2 p hp).2.1)
  have hsub : ∀ {u v}, (CutGraph net.g ((more ++ int).map (·.1))).Edge u v → (CutGraph net.g (int.map (·.1))).Edge u v := fun h => by
    obtain ⟨h1, h2⟩ := mem_cutGraph.1 h
    exact mem_cutGraph.2 ⟨h1, fun q => h2 (by rw [List.map_append]; exact List.mem_append_right _ q)⟩
  have hC : BN.Prob ⟨CutGraph net.g (int.map (·.1)), net.dom, (net.doBN (more ++ int)).k⟩ :=
    ⟨⟨cutGraph_wf hG.wf _, hB'.1.2, fun v hv => (hB'.1.3 v hv).mono (fun u hu => hu.imp id (fun h => hsub h))⟩,
      fun v hv a ha => hB'.norm v hv a (fun p hp => ha p (hsub hp)),
      fun v hv a ha => hB'.nonneg v hv a (fun p hp => ha p (hp.imp id (fun h => hsub h)))⟩
  have hZ := append_sub (names_sub hc) (names_sub hin)
  obtain ⟨z, hz⟩ := PDo_witness hpos
  obtain ⟨n, hn⟩ := exists_fresh net.g.nodes
  have hwc := cutGraph_wf hG.wf (int.map (·.1))
  have key := BN.irrelevant hB hC rfl (fun _ _ => rfl) (Ds := (· ∈ more.map (·.1)))
    (fun w _ hne a _ => by
      have e1 : w ∈ (more ++ int).map (·.1) ↔ w ∈ int.map (·.1) := by rw [List.map_append, List.mem_append]; exact or_iff_right hne
      have e2 : (∀ p ∈ more ++ int, p.1 = w → a w = p.2) ↔ ∀ p ∈ int, p.1 = w → a w = p.2 := by
        refine ⟨fun h p hp => h p (by simp [hp]), fun h p hp e => ?_⟩
        rcases List.mem_append.1 hp with q | q
        · exact absurd (List.mem_map.2 ⟨p, q, e⟩) hne
        · exact h p q e
      show (if w ∈ (more ++ int).map (·.1) then (if ∀ p ∈ more ++ int, p.1 = w → a w = p.2 then (1 : Rat) else 0) else net.kernel w a) =
        if w ∈ int.map (·.1) then (if ∀ p ∈ int, p.1 = w → a w = p.2 then 1 else 0) else net.kernel w a
      simp only [e1, e2])
    (G := ⟨n :: (CutGraph net.g (int.map (·.1))).nodes, (more.map (·.1)).map (fun x => (n, x)) ++ (CutGraph net.g (int.map (·.1))).edges⟩)
    (Z := ctx.map (·.1) ++ int.map (·.1)) (S := [n]) (T := q)
    (fun u w huw => List.mem_append_right _ huw) (fun w hw => hZ hw)
    (fun w _ e => ⟨n, by simp, fun q => hn (hZ q), List.mem_append_left _ (List.mem_map.2 ⟨w, e, rfl⟩)⟩)
    (fun t ht hr => by
      obtain ⟨x, hx, hr⟩ := reached_many (g := CutGraph net.g (int.map (·.1))) hn hwc hmn (fun e => hn (e ▸ (hq t ht).1)) hr
      exact not_reached_of_sep (withParent_wf hwc hn (hmn hx)) List.mem_cons_self (fun w hw => List.mem_cons_of_mem _ (hZ hw))
        (fun h => (hq t ht).2 x hx ⟨n, hn, h⟩) hr) z
    (h := fun a => if Has q xs a then 1 else 0) (ite_has (fun v hv => Or.inr ⟨hv, (hq v hv).1⟩))
  have hdo : ∀ E : Assign → Bool, net.PDo (more ++ int) (fun a => E a && Ctx ctx a) =
      BN.W ⟨CutGraph net.g (int.map (·.1)), net.dom, (net.doBN (more ++ int)).k⟩ (BN.at_ (ctx.map (·.1) ++ int.map (·.1)) z (fun a => if E a then 1 else 0)) :=
    fun E => PDo_within hin' (int := int) (fun p hp => List.mem_append_right _ hp) hz E
  have e1 := PDo_at hin hz (Has q xs)
  have e3 : net.PDo int (Ctx ctx) = _ := (PDo_congr (by simp)).trans (PDo_at hin hz (fun _ => true))
  have e4 : net.PDo (more ++ int) (Ctx ctx) = _ := (PDo_congr (by simp)).trans (hdo (fun _ => true))
  simp only [if_true] at e3 e4
  rw [← e1, ← hdo, ← e3, ← e4] at key
  unfold Given
  rw [div_eq_div_iff hpos' hpos]
  exact key.symm

/-- **C117** The rules for several variables in terms of the answers of `query`. -/
theorem C117_query_sets {net : Net} (hU : net.Usable) {pick pick' : Pick} {ord ord' : List Node → List Node} (hord : ∀ l, (ord l).Perm l)
    (hord' : ∀ l, (ord' l).Perm l) {q : List Node} {ctx more int : List (Node × Outcome)} (hi : net.IntOk (more ++ int)) {f f' : Factor} {a : Assign}
    (ha : net.InDom a) :
    ((∀ x ∈ more.map (·.1), x ∉ ctx.map (·.1)) →
      (∀ y ∈ q, ∀ x ∈ more.map (·.1),
        ¬ (SilentAll (CutGraph net.g (int.map (·.1))) (more.map (·.1))).DConn x y (ctx.map (·.1) ++ int.map (·.1))) →
      (net.query pick ord q (more ++ ctx) int).2 = .ok f → (net.query pick' ord' q ctx (more ++ int)).2 = .ok f' →
      net.PDo int (Ctx (more ++ ctx)) ≠ 0 → f.entry a = f'.entry a) ∧
    ((∀ y ∈ q, ∀ x ∈ more.map (·.1), ¬ net.MechConn (int.map (·.1)) (ctx.map (·.1)) x y) →
      (net.query pick ord q ctx (more ++ int)).2 = .ok f → (net.query pick' ord' q ctx int).2 = .ok f' →
      net.PDo int (Ctx ctx) ≠ 0 → net.PDo (more ++ int) (Ctx ctx) ≠ 0 → f.entry a = f'.entry a) := by
  have hnd : (more.map (·.1) ++ int.map (·.1)).Nodup := by rw [← List.map_append]; exact hi.1
  have hi1 : net.IntOk int := ⟨(List.nodup_append.1 hnd).2.1, fun p hp => hi.2 p (by simp [hp])⟩
  refine ⟨fun hx hs h h' hp => ?_, fun hs h h' hp hp' => ?_⟩
  · obtain ⟨hctx, -, hq, hqc, -⟩ := C38_answered_only_if_legal hU hord hi1 h
    obtain ⟨h1, h2⟩ := C117_rule2_set hU.good hU.normalised hi (fun p hp => (hctx p (by simp [hp])).1) hx
      (fun y hy => ⟨hq y hy, fun x hx => ⟨fun e => hqc y hy (by rw [e, List.map_append]; exact List.mem_append_left _ hx), hs y hy x hx⟩⟩) hp
    rw [entry_given hU hord hi1 h hp ha, entry_given hU hord' hi h' h1 ha, h2]
  · obtain ⟨hctx, -, hq, -⟩ := C38_answered_only_if_legal hU hord' hi1 h'
    rw [entry_given hU hord hi h hp' ha, entry_given hU hord' hi1 h' hp ha, C117_rule3_set hU.good hU.normalised hi
      (fun p hp => (hctx p hp).1) (fun y hy => ⟨hq y hy, fun x hx => hs y hy x hx⟩) hp hp']

/-- The hypotheses are met in the network with A → B, A → D → U and A → U: given A, it makes no difference for U whether B and D are
observed or set; setting B and D makes no difference for A. -/
theorem C117_example_sets :
    ExRm.net.Usable ∧ ExRm.net.IntOk ([("B", 0), ("D", 1)] ++ []) ∧
    ((∀ x ∈ ["B", "D"], ¬ (SilentAll (CutGraph ExRm.net.g []) ["B", "D"]).DConn x "U" (["A"] ++ [])) ∧
      ExRm.net.PDo [] (Ctx ([("B", 0), ("D", 1)] ++ [("A", 0)])) = 1 / 8) ∧
    ((∀ x ∈ ["B", "D"], ¬ ExRm.net.MechConn [] [] x "A") ∧ ExRm.net.PDo [] (Ctx []) = 1 ∧ ExRm.net.PDo ([("B", 0), ("D", 1)] ++ []) (Ctx []) = 1) := by
  obtain ⟨hU, -, -⟩ := ExRm.net_usable
  have hw := hU.good.wf
  refine ⟨hU, ExRm.intOk.1, ⟨fun x hx => ?_, by decide +kernel⟩, fun x hx => ?_, by decide +kernel, by decide +kernel⟩
  · have hw' := silentAll_wf (cutGraph_wf hw []) ["B", "D"]
    rcases List.mem_cons.1 hx with rfl | hx
    · exact sep_of_ok hw' (by decide +kernel) (by decide +kernel) (by decide +kernel)
    · rw [List.mem_singleton.1 hx]
      exact sep_of_ok hw' (by decide +kernel) (by decide +kernel) (by decide +kernel)
  · have hx' : x ∈ ExRm.net.g.nodes := by
      rcases List.mem_cons.1 hx with rfl | hx
      · decide +kernel
      · rw [List.mem_singleton.1 hx]; decide +kernel
    rw [mechConn_iff hw (n := "N") hx' (by decide +kernel) (by decide +kernel) (by simp) (by simp)]
    have hw' := withParent_wf (g := CutGraph ExRm.net.g []) (cutGraph_wf hw []) (n := "N") (v := x) (by decide +kernel) hx'
    rcases List.mem_cons.1 hx with rfl | hx
    · exact sep_of_ok hw' (by decide +kernel) (by decide +kernel) (by decide +kernel)
    · rw [List.mem_singleton.1 hx] at hw' ⊢
      exact sep_of_ok hw' (by decide +kernel) (by decide +kernel) (by decide +kernel)

end Verif

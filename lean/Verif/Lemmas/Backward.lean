import Verif.Lemmas.Runs
import Verif.Lemmas.Relevance

/-!
# Backward induction
-/

namespace Verif

open Graph Relation Macid

namespace BN

/-- replacing the rule of `d` by a rule that picks the best action in every context -/
theorem improve {B : BN} (hB : B.Prob) {d : Node} (hd : d ∈ B.g.nodes) {Z : List Node} (hZ : ∀ v, v ∈ Z ↔ B.g.Edge v d)
    (hZn : Z.Nodup) {H h1 h2 : Assign → Rat} (hH : ∀ a, H a = h1 a + h2 a)
    (hh2 : DependsOn h2 (fun v => v ∈ B.g.nodes ∧ ¬ B.g.DescEq d v))
    {φ : Assign → Outcome} (hφ : DependsOn φ (· ∈ Z)) (hφd : ∀ z : Assign, (∀ v ∈ Z, z v ∈ B.dom v) → φ z ∈ B.dom d)
    (hmax : ∀ z : Assign, (∀ v ∈ Z, z v ∈ B.dom v) → ∀ x ∈ B.dom d, B.act d Z z x h1 ≤ B.act d Z z (φ z) h1)
    {σ τ : Assign → Rat} (hσ : B.IsRule d σ) (hτ : B.IsRule d τ) (hτφ : ∀ a, B.InDom a → τ a = if a d = φ a then 1 else 0) :
    (B.withRule d σ).W H ≤ (B.withRule d τ).W H := by
  have e : H = fun a => h1 a + h2 a := funext hH
  rw [e, BN.W_add, BN.W_add]
  apply add_le_add
  · refine le_trans (best_response hB hd hZ hZn hφ hφd hmax hσ) (le_of_eq ?_)
    rw [W_withRule hB.wf.nodesNodup hd, W_withRule hB.wf.nodesNodup hd τ]
    apply W_congr
    intro a ha
    rw [hτφ a ha]
  · exact le_of_eq (W_nondesc hB hσ hτ hh2)

/-- the same network up to values outside the domains -/
theorem W_same {B B' : BN} (hg : B'.g = B.g) (hd : B'.dom = B.dom) (hk : ∀ v ∈ B.g.nodes, ∀ a, B.InDom a → B'.k v a = B.k v a)
    (F : Assign → Rat) : B'.W F = B.W F := by
  unfold W
  rw [hg, hd]
  apply sumOver_congr
  intro b hb _
  unfold prod
  rw [List.map_congr_left (fun v hv => hk v hv b hb)]

/-- Two networks whose differences do not matter for `h` given `d` and its parents rank the actions in the same way. -/
theorem act_cross {B B' : BN} (hB : B.Prob) (hB' : B'.Prob) (hg : B'.g = B.g) (hdm : B'.dom = B.dom) {d : Node}
    (hd : d ∈ B.g.nodes) {Z : List Node} (hZ : ∀ v, v ∈ Z ↔ B.g.Edge v d) {Ds : Node → Prop}
    (hk : ∀ v ∈ B.g.nodes, v ≠ d → ¬ Ds v → ∀ a : Assign, (∀ u, u = v ∨ B.g.Edge u v → a u ∈ B.dom u) → B'.k v a = B.k v a)
    {G : Graph} (hG : ∀ u v, B.g.Edge u v → G.Edge u v) {S T : List Node}
    (hDs : ∀ v ∈ B.g.nodes, Ds v → ∃ s ∈ S, s ∉ d :: Z ∧ G.Edge s v)
    (hsep : ∀ t ∈ T, ¬ Reached G (d :: Z) S t) {h : Assign → Rat}
    (hh : DependsOn h (fun v => v ∈ T ∧ v ∈ B.g.nodes)) (z : Assign) {x : Outcome} (hx : x ∈ B.dom d) :
    B.act d Z z x h * B'.act d Z z x (fun _ => 1) = B'.act d Z z x h * B.act d Z z x (fun _ => 1) := by
  have hσ := isRule_ind hB hd hx
  have hσ' : B'.IsRule d (fun a => if a d = x then 1 else 0) := isRule_ind hB' (by rw [hg]; exact hd) (by rw [hdm]; exact hx)
  have hdm' : ∀ v ∈ B.g.nodes, B'.dom v = B.dom v := fun v _ => by rw [hdm]
  have hle : ∀ v ∈ (B.withRule d (fun a => if a d = x then 1 else 0)).g.nodes, ¬ Ds v → ∀ a : Assign,
      (∀ u, u = v ∨ (B.withRule d (fun a => if a d = x then 1 else 0)).g.Edge u v →
        a u ∈ (B.withRule d (fun a => if a d = x then 1 else 0)).dom u) →
      (B'.withRule d (fun a => if a d = x then 1 else 0)).k v a = (B.withRule d (fun a => if a d = x then 1 else 0)).k v a := by
    intro v hv hn a ha
    show (if v = d then _ else B'.k v) a = (if v = d then _ else B.k v) a
    split
    · rfl
    · rename_i hvd
      exact hk v hv hvd hn a ha
  have hZn : ∀ v ∈ d :: Z, v ∈ B.g.nodes := by
    intro v hv
    rcases List.mem_cons.1 hv with rfl | hv
    · exact hd
    · exact (hB.wf.edgeNodes v d ((hZ v).1 hv)).1
  have key := irrelevant (withRule_prob hB hσ) (withRule_prob hB' hσ') hg hdm' hle hG hZn hDs hsep (Assign.upd z d x)
    (h := h) (hh.mono (fun v hv => Or.inr hv))
  have w1 := fun h => W_fam hB hd hZ hσ.scope z x h
  have w2 := fun h => W_fam hB' (by rw [hg]; exact hd) (Z := Z) (by rw [hg]; exact hZ) hσ'.scope z x h
  rw [w1, w2, w1, w2] at key
  simp only [Assign.upd_same, if_true, one_mul] at key
  exact key

/-- hence a choice that is best in the first is best in the second, if the context is possible in the first -/
theorem best_cross {B B' : BN} (hB : B.Prob) (hB' : B'.Prob) (hg : B'.g = B.g) (hdm : B'.dom = B.dom) {d : Node}
    (hd : d ∈ B.g.nodes) {Z : List Node} (hZ : ∀ v, v ∈ Z ↔ B.g.Edge v d) {h : Assign → Rat} {z : Assign} {x y : Outcome}
    (hx : x ∈ B.dom d) (hy : y ∈ B.dom d)
    (hcross : ∀ x ∈ B.dom d, B.act d Z z x h * B'.act d Z z x (fun _ => 1) = B'.act d Z z x h * B.act d Z z x (fun _ => 1))
    (hpos : 0 < B.act d Z z x (fun _ => 1)) (hle : B.act d Z z x h ≤ B.act d Z z y h) :
    B'.act d Z z x h ≤ B'.act d Z z y h := by
  have hd' : d ∈ B'.g.nodes := by rw [hg]; exact hd
  have hZ' : ∀ v, v ∈ Z ↔ B'.g.Edge v d := by rw [hg]; exact hZ
  have e1 := hcross x hx
  have e2 := hcross y hy
  rw [← act_one hB hd hZ hx hy z, ← act_one hB' hd' hZ' (by rw [hdm]; exact hx) (by rw [hdm]; exact hy) z] at e2
  have hp' := act_nonneg hB' hd' hZ' (x := x) (by rw [hdm]; exact hx) z (h := fun _ => 1) (fun _ => by norm_num)
  have : B'.act d Z z x h * B.act d Z z x (fun _ => 1) ≤ B'.act d Z z y h * B.act d Z z x (fun _ => 1) := by
    rw [← e1, ← e2]
    exact mul_le_mul_of_nonneg_right hle hp'
  exact le_of_mul_le_mul_right this hpos

end BN

namespace Net

/-- the nodes `impute_optimal_decision` need not look at are separated in the mechanism graph -/
theorem mech_sep {m : Macid} (hc : m.Consistent) (hm : MecFree m.g) {mg : Graph} (hw : mg.WF)
    (h3 : ∀ a b, mg.Edge a b ↔ m.g.Edge a b ∨ (b ∈ m.g.nodes ∧ a = mec b))
    (h4 : ∀ x, x ∈ mg.nodes ↔ x ∈ m.g.nodes ∨ ∃ n ∈ m.g.nodes, x = mec n)
    {d u v : Node} {a : Agent} (hd : m.role d = .decision a) (hu : m.role u = .utility a) (hdu : m.g.Desc d u)
    (hv : v ∈ m.g.nodes) (hr : ¬ m.RReach d v) : ¬ Reached mg (d :: m.g.parents d) [mec v] u := by
  have hdn : d ∈ m.g.nodes := hc.nodes d (Or.inl (Dict.mem_keys.2 ⟨a, role_decision.1 hd⟩))
  have hZ : ∀ z ∈ d :: m.g.parents d, z ∈ m.g.nodes := by
    intro z hz
    rcases mem_family.1 hz with rfl | h'
    · exact hdn
    · exact (hc.wf.edgeNodes _ _ h').1
  have hs : mec v ∈ mg.nodes := (h4 _).2 (Or.inr ⟨v, hv, rfl⟩)
  have hz : d :: m.g.parents d ⊆ mg.nodes := fun x hx => (h4 _).2 (Or.inl (hZ x hx))
  intro hreach
  apply hr
  rw [rreach_iff hc.wf hv]
  refine ⟨a, u, hd, hu, hdu, ?_⟩
  have hun : u ∈ m.g.nodes := descEq_mem hc.wf hdu.to_reflTransGen hdn
  rw [← (sourceExt_mech hm h3).dconn_iff hc.wf ⟨hv, rfl⟩ hun hZ]
  obtain ⟨b, e1, e2⟩ := isDConnected_reached hw (fun _ _ => 0) (t := u) hs hz
  obtain ⟨b', e3, e4⟩ := isDConnected_spec hw (fun _ _ => 0) (t := u) hs hz
  rw [e1] at e3
  cases e3
  exact e4.1 (e2.2 hreach)

/-- all utilities of an agent -/
def utils (net : Net) (agent : Agent) : List Node := (net.m.agentUtilities.get? agent).getD []

theorem mem_utils {net : Net} (hU : net.Usable) {agent : Agent} {u : Node} : u ∈ net.utils agent ↔ net.m.role u = .utility agent := by
  rw [role_utility hU.roles, hU.roles.util.iff]
  unfold utils
  cases h : net.m.agentUtilities.get? agent with
  | none => simp
  | some l => simp

theorem OnlyRules.pure {net net' : Net} {ds : List Node} (h : OnlyRules net ds net') {d : Node} (hd : d ∉ ds) {φ : List Outcome → Outcome}
    (hp : net.Pure d φ) : net'.Pure d φ := by
  intro a ha
  rw [h.kernel hd, h.g]
  exact hp a ((h.inDom a).1 ha)

/-- Backward induction: if no decision relies on one that is treated later, the result is at least as good as any
combination of rules for the treated decisions. -/
theorem backward {pick : Pick} {ord setOrd : List Node → List Node} (hord : ∀ l, (ord l).Perm l) (hset : ∀ l, (setOrd l).Perm l)
    {agent : Agent} : ∀ (L : List Node) {net net' : Net}, net.Usable → NamesOk net.g → (∀ d ∈ L, net.m.role d = .decision agent) →
      L.Nodup → L.Pairwise (fun d e => ¬ net.m.RReach d e) → forNet (imputeOptimal pick ord setOrd) net L = (net', .ok ()) →
      net'.Usable ∧ OnlyRules net L net' ∧ (∀ d ∈ L, net'.undecided d = false ∧ ∃ φ, net'.Pure d φ) ∧
      ∀ T : BN, T.Prob → T.g = net.g → T.dom = net.dom →
        (∀ v ∈ net.g.nodes, v ∉ L → ∀ a : Assign, (∀ u, u = v ∨ net.g.Edge u v → a u ∈ net.dom u) → T.k v a = net.kernel v a) →
        T.W (fun a => ((net.utils agent).map a).sum) ≤ net'.bn.W (fun a => ((net.utils agent).map a).sum)
  | [], net, net', hU, _, _, _, _, h => by
    simp only [forNet, Prod.mk.injEq, and_true] at h
    subst h
    refine ⟨hU, ⟨rfl, rfl, rfl, fun _ _ => rfl, fun _ _ => rfl⟩, by simp, fun T hT hg hdm hk => le_of_eq ?_⟩
    exact BN.W_same hg hdm (fun v hv a ha => hk v hv (by simp) a (fun u hu => ha u (by
      rcases hu with rfl | hu
      · exact hv
      · exact (hU.good.wf.edgeNodes u v hu).1))) _
  | d :: L, net, net', hU, hnames, hL, hnd, hpw, h => by
    unfold forNet at h
    generalize hio : imputeOptimal pick ord setOrd net d = y at h
    obtain ⟨net1, r⟩ := y
    cases r with
    | error e => simp at h
    | ok u =>
      simp only at h
      obtain ⟨n1, ag, φ, hd, hrole, h1, hU1, hO1, hU', hO', hun, hpure, hφ, _, hmax⟩ := imputeOptimal_spec hU hord hset hio
      have hag : ag = agent := by
        have := hL d (by simp)
        rw [hrole] at this
        cases this
        rfl
      subst hag
      obtain ⟨hdL, hnd'⟩ := List.nodup_cons.1 hnd
      obtain ⟨hpd, hpw'⟩ := List.pairwise_cons.1 hpw
      obtain ⟨i1, i2, i3, i4⟩ := backward hord hset (agent := ag) L hU' (by rw [hO'.g]; exact hnames)
        (fun e he => by rw [hO'.m]; exact hL e (by simp [he])) hnd' (by rw [hO'.m]; exact hpw') h
      have hut : net1.utils ag = net.utils ag := by unfold utils; rw [hO'.m]
      rw [hut] at i4
      refine ⟨i1, ?_, ?_, ?_⟩
      · refine ⟨i2.m.trans hO'.m, i2.base.trans hO'.base, i2.domain.trans hO'.domain, fun w hw => ?_, fun w hw => ?_⟩
        · rw [List.mem_cons, not_or] at hw
          rw [i2.cpds w hw.2, hO'.cpds w (by simpa using hw.1)]
        · rw [List.mem_cons, not_or] at hw
          rw [i2.rels w hw.2, hO'.rels w (by simpa using hw.1)]
      · intro e he
        rcases List.mem_cons.1 he with rfl | he
        · exact ⟨by rw [i2.undecided hdL]; exact hun, φ, i2.pure hdL hpure⟩
        · exact i3 e he
      · intro T hT hg hdm hk
        have hTd : d ∈ T.g.nodes := by rw [hg]; exact hd
        -- the rule just found
        have hr1 : net.bn.IsRule d (net1.kernel d) := isRule_only hd hO' hU'.good hU'.normalised
        have hr1' : T.IsRule d (net1.kernel d) := by
          obtain ⟨q1, q2, q3⟩ := hr1
          refine ⟨?_, ?_, ?_⟩
          · rw [hg]; exact q1
          · rw [hg, hdm]; exact q2
          · rw [hg, hdm]; exact q3
        have step2 := i4 (T.withRule d (net1.kernel d)) (BN.withRule_prob hT hr1') (by rw [hO'.g]; exact hg) (by rw [hO'.dom]; exact hdm) (by
          intro v hv hvL a ha
          rw [hO'.g] at hv ha
          rw [hO'.dom] at ha
          show (if v = d then net1.kernel d else T.k v) a = net1.kernel v a
          split
          · rename_i e; subst e; rfl
          · rename_i e
            rw [hO'.kernel (by simpa using e)]
            exact hk v hv (by simp [e, hvL]) a ha)
        refine le_trans ?_ step2
        have hZ : ∀ v, v ∈ net.g.parents d ↔ T.g.Edge v d := fun v => by rw [hg]; exact Graph.mem_parents
        have hZ0 : ∀ v, v ∈ net.g.parents d ↔ net.bn.g.Edge v d := fun v => Graph.mem_parents
        have hB := bn_prob hU.good hU.normalised
        have hself : T.W (fun a => ((net.utils ag).map a).sum) = (T.withRule d (T.k d)).W (fun a => ((net.utils ag).map a).sum) := by
          rw [BN.withRule_self]
        rw [hself]
        -- separation
        obtain ⟨mg, _, m2, m3, m4⟩ := mechGraph_spec hU.good.wf (mecFree_of_names hnames)
        have hcross : ∀ z : Assign, ∀ x ∈ net.dom d,
            net.bn.act d (net.g.parents d) z x (fun a => ((descUtils net ag d).map a).sum) * T.act d (net.g.parents d) z x (fun _ => 1) =
            T.act d (net.g.parents d) z x (fun a => ((descUtils net ag d).map a).sum) * net.bn.act d (net.g.parents d) z x (fun _ => 1) := by
          intro z x hx
          have hkk : ∀ v ∈ net.bn.g.nodes, v ≠ d → ¬ (v ∈ L) → ∀ a : Assign,
              (∀ u, u = v ∨ net.bn.g.Edge u v → a u ∈ net.bn.dom u) → T.k v a = net.bn.k v a :=
            fun v hv hvd hvL a ha => hk v hv (by simp [hvd, hvL]) a ha
          refine BN.act_cross hB hT hg hdm hd hZ0 (Ds := fun v => v ∈ L) hkk (G := mg) (fun u v huv => (m3 u v).2 (Or.inl huv))
            (S := L.map mec) (T := descUtils net ag d) ?_ ?_ ?_ z hx
          · intro v hv hvL
            refine ⟨mec v, List.mem_map_of_mem hvL, fun hmem => ?_, (m3 _ _).2 (Or.inr ⟨hv, rfl⟩)⟩
            have : mec v ∈ net.g.nodes := by
              rcases mem_family.1 hmem with h' | h'
              · rw [h']; exact hd
              · exact (hU.good.wf.edgeNodes _ _ h').1
            exact hnames.1 _ this v hv rfl
          · intro t ht hreach
            obtain ⟨s, hs, hreach⟩ := reached_iff.1 hreach
            obtain ⟨e, he, rfl⟩ := List.mem_map.1 hs
            have hen : e ∈ net.g.nodes := hU.roles.nodes e (Or.inl (Dict.mem_keys.2 ⟨ag, role_decision.1 (hL e (by simp [he]))⟩))
            unfold descUtils at ht
            rw [List.mem_filter, decide_eq_true_eq, Graph.mem_descendants hU.good.wf] at ht
            exact mech_sep hU.roles (mecFree_of_names hnames) m2 m3 m4 hrole ((mem_utils hU).1 ht.1) ht.2 hen (hpd e he) hreach
          · intro a b hab
            simp only
            rw [List.map_congr_left (fun u hu => hab u ⟨hu, ?_⟩)]
            unfold descUtils at hu
            rw [List.mem_filter, decide_eq_true_eq, Graph.mem_descendants hU.good.wf] at hu
            exact descEq_mem hU.good.wf hu.2.to_reflTransGen hd
        refine BN.improve hT hTd hZ (Graph.nodup_parents hU.good.wf.edgesNodup d)
          (h1 := fun a => ((descUtils net ag d).map a).sum)
          (h2 := fun a => (((net.utils ag).filter (fun u => !decide (u ∈ net.g.descendants d))).map a).sum)
          (φ := fun a => φ ((net.g.parents d).map a))
          (fun a => sum_split (net.utils ag) (fun u => decide (u ∈ net.g.descendants d)) a) ?_ ?_ ?_ ?_ (BN.isRule_k hT hTd) hr1' ?_
        · intro a b hab
          simp only
          congr 1
          apply List.map_congr_left
          intro u hu
          obtain ⟨k1, k2⟩ := List.mem_filter.1 hu
          apply hab
          have hur := (mem_utils hU).1 k1
          have huu : u ∈ net.m.utilities := Dict.mem_keys.2 ⟨ag, (role_utility hU.roles).1 hur⟩
          rw [hg]
          refine ⟨hU.roles.nodes u (Or.inr huu), fun hdu => ?_⟩
          rcases ReflTransGen.cases_head_iff.1 hdu with rfl | ⟨w, hw1, hw2⟩
          · rw [hrole] at hur
            cases hur
          · have : u ∈ net.g.descendants d := (Graph.mem_descendants hU.good.wf).2 (TransGen.head'_iff.2 ⟨w, hw1, hw2⟩)
            simp [this] at k2
        · intro a b hab
          simp only
          rw [List.map_congr_left (fun v hv => hab v hv)]
        · intro z hz
          rw [hdm] at hz ⊢
          obtain ⟨b, hb, hbz⟩ := exists_inDom hU.good z (· ∈ net.g.parents d) (fun u hu _ => hz u hu)
          rw [← List.map_congr_left (fun v hv => hbz v hv)]
          exact hφ _ (inst_of_inDom hU.good hb d)
        · intro z hz x hx
          rw [hdm] at hz hx
          obtain ⟨p1, p2⟩ := hmax z hz x hx
          rw [act_only hO1] at p1 p2
          rw [act_only hO1] at p2
          have hφx : φ ((net.g.parents d).map z) ∈ net.dom d := by
            obtain ⟨b, hb, hbz⟩ := exists_inDom hU.good z (· ∈ net.g.parents d) (fun u hu _ => hz u hu)
            rw [← List.map_congr_left (fun v hv => hbz v hv)]
            exact hφ _ (inst_of_inDom hU.good hb d)
          exact BN.best_cross hB hT hg hdm hd hZ0 hx hφx (fun x hx => hcross z x hx) p1 p2
        · intro a ha
          have ha' : net.InDom a := by
            intro v hv
            have := ha v (by rw [hg]; exact hv)
            rw [hdm] at this
            exact this
          have := hpure a ((hO'.inDom a).2 ha')
          rw [hO'.g] at this
          exact this

end Net
end Verif

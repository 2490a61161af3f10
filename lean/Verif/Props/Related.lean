import Verif.Props.Incentives
import Verif.Lemmas.Prospect
import Verif.Lemmas.Requisite
import Verif.Lemmas.MaxEU

/-!
# How the answers of the incentive functions fit together (C115)
-/

namespace Verif

open Relation Macid Graph Net

/-! ### d-connection needs only edges into ancestors -/

/-- if two graphs have the same edges into every node above `s`, `t` or the observed nodes, then a connection in the larger is one in
the smaller -/
theorem dconn_above {G G' : Graph} (hw : G.WF) (hw' : G'.WF) {s t : Node} {Z : List Node}
    (h : ∀ u v, G.Edge u v → (G.DescEq v s ∨ G.DescEq v t ∨ G.AnZ Z v) → G'.Edge u v) (hc : G.DConn s t Z) : G'.DConn s t Z := by
  have hA : ∀ v, G.AnZ Z v → G'.AnZ Z v := by
    rintro v ⟨z, hz, hd⟩
    refine ⟨z, hz, ?_⟩
    induction hd using ReflTransGen.head_induction_on with
    | refl => exact .refl
    | head e r ih => exact .head (h _ _ e (.inr (.inr ⟨z, hz, r⟩))) ih
  have key : ∀ v dir, Ball G Z (StartUp s) v dir →
      (dir = .up → (G.DescEq v s ∨ G.AnZ Z v) ∧ Ball G' Z (StartUp s) v .up) ∧
      (dir = .down → (G.DescEq v t ∨ G.AnZ Z v) → Ball G' Z (StartUp s) v .down) := by
    intro v dir hb
    induction hb with
    | init hi =>
      obtain ⟨rfl, rfl⟩ := hi
      exact ⟨fun _ => ⟨.inl .refl, .init ⟨rfl, rfl⟩⟩, by simp⟩
    | upPar _ hz e ih =>
      obtain ⟨i1, i2⟩ := ih.1 rfl
      refine ⟨fun _ => ⟨?_, .upPar i2 hz (h _ _ e (i1.imp id .inr))⟩, by simp⟩
      rcases i1 with i | ⟨z, q, i⟩
      · exact .inl (.head e i)
      · exact .inr ⟨z, q, .head e i⟩
    | upCh _ hz e ih =>
      obtain ⟨_, i2⟩ := ih.1 rfl
      exact ⟨by simp, fun _ q => .upCh i2 hz (h _ _ e (.inr q))⟩
    | downCh _ hz e ih =>
      refine ⟨by simp, fun _ q => .downCh (ih.2 rfl ?_) hz (h _ _ e (.inr q))⟩
      rcases q with i | ⟨z, q, i⟩
      · exact .inl (.head e i)
      · exact .inr ⟨z, q, .head e i⟩
    | downPar _ ha e ih =>
      refine ⟨fun _ => ⟨?_, .downPar (ih.2 rfl (.inr ha)) (hA _ ha) (h _ _ e (.inr (.inr ha)))⟩, by simp⟩
      obtain ⟨z, q, i⟩ := ha
      exact .inr ⟨z, q, .head e i⟩
  obtain ⟨q, dir, hb⟩ := (ball_iff_dconn hw).2 hc
  refine (ball_iff_dconn hw').1 ⟨q, dir, ?_⟩
  cases dir with
  | up => exact ((key _ _ hb).1 rfl).2
  | down => exact (key _ _ hb).2 rfl (.inl .refl)

/-! ### two decisions above one utility, neither above the other, rely on each other -/

theorem rreach_of_above {m : Macid} (hc : m.Consistent) {d e u : Node} {a : Agent} (hd : m.role d = .decision a) (hu : m.role u = .utility a)
    (h1 : m.g.Desc d u) (h2 : m.g.Desc e u) (hn : ¬ m.g.DescEq e d) : m.RReach d e := by
  have hen : e ∈ m.g.nodes := (desc_mem hc.wf h2).1
  obtain ⟨n, hn'⟩ := exists_fresh m.g.nodes
  have hdn : d ∈ m.g.nodes := (desc_mem hc.wf h1).1
  refine ⟨a, u, hd, hu, h1, d :: m.g.parents d, n, by simp [mem_parents], hn', ?_⟩
  have hz : ∀ v, m.g.DescEq e v → v ∉ d :: m.g.parents d := by
    intro v hv hm
    rcases List.mem_cons.1 hm with rfl | hm
    · exact hn hv
    · exact hn (.tail hv (mem_parents.1 hm))
  have hnz : n ∉ d :: m.g.parents d := by
    intro hm
    rcases List.mem_cons.1 hm with rfl | hm
    · exact hn' hdn
    · exact hn' (hc.wf.edgeNodes _ _ (mem_parents.1 hm)).1
  refine (ball_iff_dconn (withParent_wf hc.wf hn' hen)).1 ⟨hz u h2.to_reflTransGen, .down, ?_⟩
  have hb : ∀ v, m.g.DescEq e v → Ball (m.g.withParent n e) (d :: m.g.parents d) (StartUp n) v .down := by
    intro v hv
    induction hv with
    | refl => exact .upCh (.init ⟨rfl, rfl⟩) hnz (by simp [Graph.Edge, withParent])
    | tail hv e' ih => exact .downCh ih (hz _ hv) (by
        simp only [Graph.Edge, withParent, List.mem_cons] at e' ⊢
        exact .inr e')
  exact hb u h2.to_reflTransGen

/-- so with sufficient recall they are not owned by the same agent -/
theorem no_pair {m : Macid} (hc : m.Consistent) (hr : m.Recalls) {d e u : Node} {a : Agent} (hd : m.role d = .decision a) (he : m.role e = .decision a)
    (hu : m.role u = .utility a) (h1 : m.g.Desc d u) (h2 : m.g.Desc e u) (n1 : ¬ m.g.DescEq e d) (n2 : ¬ m.g.DescEq d e) : False := by
  have hne : d ≠ e := fun h => n1 (h ▸ .refl)
  have r1 := rreach_of_above hc hd hu h1 h2 n1
  have r2 := rreach_of_above hc he hu h2 h1 n2
  have hin : ∀ v, m.role v = .decision a → v ∈ m.decisions.filter (fun x => decide (m.role x = .decision a)) := by
    intro v hv
    rw [List.mem_filter]
    exact ⟨decisions_role.2 ⟨a, hv⟩, by simpa using hv⟩
  refine hr a (m.decisions.filter (fun x => decide (m.role x = .decision a))) (fun v => ⟨fun q => by simpa using (List.mem_filter.1 q).2, hin v⟩) d
    (.tail (.single ⟨hin d hd, hin e he, hne, r1⟩) ⟨hin e he, hin d hd, hne.symm, r2⟩)

/-- the decisions below `d` -/
noncomputable def later (m : Macid) (order : List Node) (d : Node) : List Node :=
  haveI := Classical.decPred (fun e => m.g.Desc d e)
  order.filter (fun e => decide (m.g.Desc d e))

theorem mem_later {m : Macid} {order : List Node} {d e : Node} : e ∈ later m order d ↔ e ∈ order ∧ m.g.Desc d e := by
  simp [later]

theorem wf_trimmed {g H : Graph} (hw : g.WF) (r : List Node) : (g.trimmed H r).WF := wf_filter hw _

/-- only the decisions below `d` matter for what is requisite for `d` -/
theorem requisite_later {m : Macid} (hc : m.Consistent) (hr : m.Recalls) (hone : ∀ d e a b, m.role d = .decision a → m.role e = .decision b → a = b)
    {order : List Node} {H : Graph} (ho : m.IsOrder order) (hs : ∀ u v, H.Edge u v → m.g.Edge u v) {l r : List Node} {d : Node} (hl : order = l ++ d :: r) (x : Node) :
    (m.onGraph (m.g.trimmed H r)).Requisite d x ↔ (m.onGraph (m.g.trimmed H (later m order d))).Requisite d x := by
  have hw := hc.wf
  have hlr : ∀ e, m.g.Desc d e → e ∈ order → e ∈ r := by
    intro e hde he
    rw [hl] at he
    simp only [List.mem_append, List.mem_cons] at he
    rcases he with he | rfl | he
    · have := ho.sorted
      rw [hl, List.pairwise_append] at this
      exact absurd hde (this.2.2 e he d (by simp))
    · exact absurd hde (hw.acyclic _)
    · exact he
  have hrd : ∀ e ∈ r, e ∈ order ∧ ¬ m.g.DescEq e d := by
    intro e he
    refine ⟨by rw [hl]; simp [he], fun h => ?_⟩
    have hs := ho.sorted
    rw [hl, List.pairwise_append, List.pairwise_cons] at hs
    have hnd := ho.nodup
    rw [hl, List.nodup_append, List.nodup_cons] at hnd
    rcases reflTransGen_iff_eq_or_transGen.1 h with q | q
    · subst q
      exact hnd.2.1.1 he
    · exact hs.2.1.1 e he q
  have sub : ∀ u v, (m.g.trimmed H r).Edge u v → (m.g.trimmed H (later m order d)).Edge u v := by
    intro u v h
    rw [mem_trimmed] at h ⊢
    exact ⟨h.1, fun q => h.2 (hlr v (mem_later.1 q).2 (mem_later.1 q).1)⟩
  have hdr : d ∉ r := fun q => (hrd d q).2 .refl
  have hdl : d ∉ later m order d := fun q => hw.acyclic d (mem_later.1 q).2
  have into : ∀ z, (m.g.trimmed H r).Edge z d ↔ (m.g.trimmed H (later m order d)).Edge z d := by
    intro z
    rw [mem_trimmed, mem_trimmed]
    simp [hdr, hdl]
  have up : ∀ {G : Graph} {s t : Node} {rs : List Node}, (G = m.g.trimmed H rs) → G.DescEq s t → m.g.DescEq s t := by
    rintro G s t rs rfl h
    exact ReflTransGen.mono (fun u v q => (mem_trimmed.1 q).1) _ _ h
  constructor
  · rintro ⟨he, a, u, q1, q2, q3, Z, q4, q5⟩
    refine ⟨(into x).1 he, a, u, q1, q2, TransGen.mono (fun _ _ => sub _ _) _ _ q3, Z, fun z => (q4 z).trans (by
      show _ ∧ (_ ∨ (m.g.trimmed H r).Edge z d) ↔ _ ∧ (_ ∨ (m.g.trimmed H (later m order d)).Edge z d)
      rw [into z]), ?_⟩
    exact dconn_above (wf_trimmed hw _) (wf_trimmed hw _) (fun u v h _ => sub u v h) q5
  · rintro ⟨he, a, u, q1, q2, q3, Z, q4, q5⟩
    have q1' : m.role d = .decision a := q1
    have q2' : m.role u = .utility a := q2
    have hdu : m.g.Desc d u := TransGen.mono (fun _ _ q => (mem_trimmed.1 q).1) _ _ q3
    have hxd : m.g.Edge x d := (mem_trimmed.1 he).1
    refine ⟨(into x).2 he, a, u, q1, q2, ?_, Z, fun z => (q4 z).trans (by
      show _ ∧ (_ ∨ (m.g.trimmed H (later m order d)).Edge z d) ↔ _ ∧ (_ ∨ (m.g.trimmed H r).Edge z d)
      rw [into z]), ?_⟩
    · have : ∀ v, (m.g.trimmed H (later m order d)).Desc d v → (m.g.trimmed H r).Desc d v := by
        intro v hv
        have step : ∀ {p q}, (m.g.trimmed H (later m order d)).Edge p q → m.g.Desc d q → (m.g.trimmed H r).Edge p q := by
          intro p q h hq
          rw [mem_trimmed] at h ⊢
          exact ⟨h.1, fun hqr => h.2 (mem_later.2 ⟨(hrd q hqr).1, hq⟩)⟩
        induction hv with
        | single e => exact .single (step e (.single (mem_trimmed.1 e).1))
        | tail hv e ih => exact .tail ih (step e (.tail (TransGen.mono (fun _ _ q => (mem_trimmed.1 q).1) _ _ hv) (mem_trimmed.1 e).1))
      exact this u q3
    · refine dconn_above (wf_trimmed hw _) (wf_trimmed hw _) (fun p v h hv => ?_) q5
      change (m.g.trimmed H (later m order d)).Edge p v at h
      show (m.g.trimmed H r).Edge p v
      rw [mem_trimmed] at h ⊢
      refine ⟨h.1, fun hvr => ?_⟩
      by_cases hl : m.g.Desc d v
      · exact h.2 (mem_later.2 ⟨(hrd v hvr).1, hl⟩)
      · exfalso
        obtain ⟨hvo, hvd⟩ := hrd v hvr
        obtain ⟨b, hvb⟩ := (ho.all v).1 hvo
        have hab := hone d v a b q1' hvb
        subst hab
        rcases hv with hv | hv | ⟨z, hz, hv⟩
        · exact hvd (.tail (up rfl hv) hxd)
        · have hv' := up rfl hv
          rcases reflTransGen_iff_eq_or_transGen.1 hv' with q | q
          · subst q
            rw [q2'] at hvb
            cases hvb
          · refine no_pair hc hr q1' hvb q2' hdu q hvd (fun h => ?_)
            rcases reflTransGen_iff_eq_or_transGen.1 h with q | q
            · exact hvd (q ▸ .refl)
            · exact hl q
        · have hz' := (q4 z).1 hz
          rcases hz'.2 with rfl | e
          · exact hvd (up rfl hv)
          · exact hvd (.tail (up rfl hv) (mem_trimmed.1 e).1)

/-- an edge of the requisite graph into a decision: requisite after the decisions below have been treated -/
theorem IsRequisiteGraph.below {m : Macid} (hc : m.Consistent) (hr : m.Recalls) (hone : ∀ d e a b, m.role d = .decision a → m.role e = .decision b → a = b)
    {order : List Node} {H : Graph} (ho : m.IsOrder order) (h : m.IsRequisiteGraph order H) {d : Node} (hd : d ∈ order) (x : Node) :
    H.Edge x d ↔ (m.onGraph (m.g.trimmed H (later m order d))).Requisite d x := by
  obtain ⟨l, r, hl⟩ := List.append_of_mem hd
  rw [h.obs l d r hl x, requisite_later hc hr hone ho h.sub hl]

/-- two diagrams with the same edges and roles have the same requisite graph -/
theorem requisite_unique {m m' : Macid} (hc : m.Consistent) (hc' : m'.Consistent) (hr : m.Recalls) (hr' : m'.Recalls)
    (hone : ∀ d e a b, m.role d = .decision a → m.role e = .decision b → a = b) (he : ∀ u v, m'.g.Edge u v ↔ m.g.Edge u v) (hρ : ∀ v, m'.role v = m.role v)
    {o o' : List Node} {H H' : Graph} (ho : m.IsOrder o) (ho' : m'.IsOrder o') (h : m.IsRequisiteGraph o H) (h' : m'.IsRequisiteGraph o' H') (u v : Node) :
    H.Edge u v ↔ H'.Edge u v := by
  have hone' : ∀ d e a b, m'.role d = .decision a → m'.role e = .decision b → a = b := fun d e a b q1 q2 => hone d e a b (hρ d ▸ q1) (hρ e ▸ q2)
  have hoo : ∀ v, v ∈ o' ↔ v ∈ o := fun v => by rw [ho.all, ho'.all]; simp only [hρ]
  have hdesc : ∀ u v, m'.g.Desc u v ↔ m.g.Desc u v := fun u v =>
    ⟨fun q => TransGen.mono (fun _ _ e => (he _ _).1 e) _ _ q, fun q => TransGen.mono (fun _ _ e => (he _ _).2 e) _ _ q⟩
  by_cases hv : v ∈ o
  · -- from the last decisions upwards, along the number of nodes below
    have : ∀ n v, v ∈ o → (m.g.descendants v).toFinset.card ≤ n → ∀ u, H.Edge u v ↔ H'.Edge u v := by
      intro n
      induction n with
      | zero =>
        intro v hv hn u
        have hnone : ∀ w, ¬ m.g.Desc v w := by
          intro w hw
          have : w ∈ m.g.descendants v := (mem_descendants hc.wf).2 hw
          have := List.mem_toFinset.2 this
          rw [Finset.card_eq_zero.1 (Nat.le_zero.1 hn)] at this
          simp at this
        rw [IsRequisiteGraph.below hc hr hone ho h hv, IsRequisiteGraph.below hc' hr' hone' ho' h' ((hoo v).2 hv)]
        apply Requisite.congr (fun w => by rw [onGraph_role, onGraph_role, hρ])
        intro a b
        show (m.g.trimmed H _).Edge a b ↔ (m'.g.trimmed H' _).Edge a b
        rw [mem_trimmed, mem_trimmed, mem_later, mem_later, he]
        simp [hnone, hdesc]
      | succ n ih =>
        intro v hv hn u
        rw [IsRequisiteGraph.below hc hr hone ho h hv, IsRequisiteGraph.below hc' hr' hone' ho' h' ((hoo v).2 hv)]
        apply Requisite.congr (fun w => by rw [onGraph_role, onGraph_role, hρ])
        intro a b
        show (m.g.trimmed H _).Edge a b ↔ (m'.g.trimmed H' _).Edge a b
        rw [mem_trimmed, mem_trimmed, mem_later, mem_later, he, hoo, hdesc]
        refine and_congr_right fun _ => imp_congr_right fun hb => ih b hb.1 ?_ a
        have hlt : (m.g.descendants b).toFinset.card < (m.g.descendants v).toFinset.card := by
          apply Finset.card_lt_card
          rw [Finset.ssubset_iff_of_subset]
          · exact ⟨b, List.mem_toFinset.2 ((mem_descendants hc.wf).2 hb.2), fun q => hc.wf.acyclic b ((mem_descendants hc.wf).1 (List.mem_toFinset.1 q))⟩
          · intro w hw
            exact List.mem_toFinset.2 ((mem_descendants hc.wf).2 (hb.2.trans ((mem_descendants hc.wf).1 (List.mem_toFinset.1 hw))))
        omega
    exact this _ v hv le_rfl u
  · exact ⟨fun q => h'.other u v ((he u v).2 (h.sub u v q)) (fun q' => hv ((hoo v).1 q')), fun q => h.other u v ((he u v).1 (h'.sub u v q)) hv⟩

theorem RReach.same {m m' : Macid} (hn : ∀ v, v ∈ m'.g.nodes ↔ v ∈ m.g.nodes) (he : ∀ u v, m'.g.Edge u v ↔ m.g.Edge u v)
    (hρ : ∀ v, m'.role v = m.role v) {d v : Node} (h : m'.RReach d v) : m.RReach d v := by
  obtain ⟨a, u, h1, h2, h3, Z, n, h4, h5, h6⟩ := h
  refine ⟨a, u, (hρ d).symm.trans h1, (hρ u).symm.trans h2, TransGen.mono (fun _ _ e => (he _ _).1 e) _ _ h3, Z, n, fun z => (h4 z).trans (by rw [he]),
    fun q => h5 ((hn n).2 q), ?_⟩
  refine (Graph.dconn_congr (g := m'.g.withParent n v) (g' := m.g.withParent n v) (fun p q => ?_) n u Z).2 h6
  have := he p q
  simp only [Graph.Edge, withParent, List.mem_cons] at this ⊢
  rw [this]

theorem Recalls.same {m m' : Macid} (hn : ∀ v, v ∈ m'.g.nodes ↔ v ∈ m.g.nodes) (he : ∀ u v, m'.g.Edge u v ↔ m.g.Edge u v)
    (hρ : ∀ v, m'.role v = m.role v) (h : m.Recalls) : m'.Recalls := by
  intro a ds hds d hd
  refine h a ds (fun x => (hds x).trans (by rw [hρ])) d (TransGen.mono (fun x y q => ?_) _ _ hd)
  exact ⟨q.1, q.2.1, q.2.2.1, RReach.same hn he hρ q.2.2.2⟩

theorem Analysable.one_agent {net : Net} (h : net.Analysable) (h1 : net.m.agents.length ≤ 1) {d e : Node} {a b : Agent} (hd : net.m.role d = .decision a)
    (he : net.m.role e = .decision b) : a = b := by
  have ha : a ∈ net.m.agents := by
    obtain ⟨l, hl, _⟩ := (h.roles.dec.iff d a).1 (role_decision.1 hd)
    exact (h.staffed.both a).2 (Dict.mem_keys.2 ⟨l, hl⟩)
  exact (h.owner h1 ha (.inl he)).symm

/-- **C115** For a diagram of one agent with sufficient recall, `requisite_graph` depends only on the nodes, edges and roles: not on the
order in which nodes and edges were added, nor on the order in which sets are walked through. -/
theorem C115_requisite_graph {net net' : Net} (h : net.Analysable) (h' : net'.Analysable) (h1 : net.m.agents.length ≤ 1) (hr : net.m.Recalls)
    (hn : ∀ v, v ∈ net'.g.nodes ↔ v ∈ net.g.nodes) (he : ∀ u v, net'.g.Edge u v ↔ net.g.Edge u v) (hρ : ∀ v, net'.m.role v = net.m.role v)
    {pick pick' : Pick} {tpick tpick' : List Node → Nat} {setOrd setOrd' : ListOrder} (hset : ∀ l, (setOrd l).Perm l) (hset' : ∀ l, (setOrd' l).Perm l) :
    ∃ rg rg', requisiteGraph pick tpick setOrd net = .ok rg ∧ requisiteGraph pick' tpick' setOrd' net' = .ok rg' ∧
      (∀ v, v ∈ rg'.g.nodes ↔ v ∈ rg.g.nodes) ∧ ∀ u v, rg'.g.Edge u v ↔ rg.g.Edge u v := by
  obtain ⟨rg, o, a1, _, a2, a3, _⟩ := h.requisiteGraph pick tpick hset
  obtain ⟨rg', o', b1, _, b2, b3, _⟩ := h'.requisiteGraph pick' tpick' hset'
  refine ⟨rg, rg', a1, b1, fun v => by rw [a3.nodes, b3.nodes]; exact hn v, fun u v => ?_⟩
  exact (requisite_unique h.roles h'.roles hr (Recalls.same hn he hρ hr) (fun _ _ _ _ q1 q2 => Analysable.one_agent h h1 q1 q2) he hρ a2 b2 a3 b3 u v).symm

theorem ok_inj {b c : Bool} : (Except.ok b : Py Bool) = .ok c ↔ b = c := by
  constructor
  · intro h; cases h; rfl
  · rintro rfl; rfl

/-- **C115** So do `admits_voc`, `admits_dir_voc` and `admits_ri`. -/
theorem C115_same_answers {net net' : Net} (h : net.Analysable) (h' : net'.Analysable) (hN : NamesOk net.g) (hN' : NamesOk net'.g)
    (h1 : net.m.agents.length ≤ 1) (h1' : net'.m.agents.length ≤ 1) (hr : net.m.Recalls)
    (hn : ∀ v, v ∈ net'.g.nodes ↔ v ∈ net.g.nodes) (he : ∀ u v, net'.g.Edge u v ↔ net.g.Edge u v) (hρ : ∀ v, net'.m.role v = net.m.role v)
    {pick pick' : Pick} {tpick tpick' : List Node → Nat} {setOrd setOrd' : ListOrder} (hset : ∀ l, (setOrd l).Perm l) (hset' : ∀ l, (setOrd' l).Perm l)
    {x d : Node} (hx : x ∈ net.g.nodes) (hd : d ∈ net.g.nodes) :
    (admitsVoc pick tpick setOrd net x = .ok true ↔ admitsVoc pick' tpick' setOrd' net' x = .ok true) ∧
    (admitsDirVoc pick tpick setOrd net x = .ok true ↔ admitsDirVoc pick' tpick' setOrd' net' x = .ok true) ∧
    (admitsRi pick tpick setOrd net d x = .ok true ↔ admitsRi pick' tpick' setOrd' net' d x = .ok true) := by
  obtain ⟨rg, rg', e1, e2, e3, e4⟩ := C115_requisite_graph h h' h1 hr hn he hρ (pick := pick) (pick' := pick') (tpick := tpick) (tpick' := tpick') hset hset'
  have hr' := Recalls.same hn he hρ hr
  have hE : rg'.g.Edge = rg.g.Edge := by
    funext u v
    exact propext (e4 u v)
  have hP : ∀ s t p, rg'.g.IsDirPath s t p ↔ rg.g.IsDirPath s t p := by
    intro s t p
    unfold IsDirPath
    rw [hE]
  refine ⟨?_, ?_, ?_⟩
  · obtain ⟨b, k1, k2⟩ := C56_admits_voc h hN hset h1 hr hx e1
    obtain ⟨b', l1, l2⟩ := C56_admits_voc h' hN' hset' h1' hr' ((hn x).2 hx) e2
    rw [k1, l1, ok_inj, ok_inj, k2, l2]
    simp only [hρ, Graph.DescEq, hE]
  · obtain ⟨b, k1, k2⟩ := C56_admits_dir_voc h hN hset h1 hr hx e1
    obtain ⟨b', l1, l2⟩ := C56_admits_dir_voc h' hN' hset' h1' hr' ((hn x).2 hx) e2
    rw [k1, l1, ok_inj, ok_inj, k2, l2]
    simp only [hρ, hP]
  · obtain ⟨r1, b, _, q1, _, _, k1, k2⟩ := C54_admits_ri h hN pick tpick hset h1 hr hx hd
    obtain ⟨r2, b', _, q2, _, _, l1, l2⟩ := C54_admits_ri h' hN' pick' tpick' hset' h1' hr' ((hn x).2 hx) ((hn d).2 hd)
    rw [e1] at q1
    rw [e2] at q2
    cases q1
    cases q2
    rw [k1, l1, ok_inj, ok_inj, k2, l2]
    simp only [hP]

/-- a decision that keeps an observation in the requisite graph has a utility below it there -/
theorem IsRequisiteGraph.useful {m : Macid} (hc : m.Consistent) {order : List Node} {H : Graph} (ho : m.IsOrder order) (h : m.IsRequisiteGraph order H)
    {w d : Node} (hd : d ∈ order) (he : H.Edge w d) : ∃ u a, m.role u = .utility a ∧ H.Desc d u := by
  obtain ⟨l, r, hl⟩ := List.append_of_mem hd
  obtain ⟨_, a, u, _, q2, q3, _⟩ := (h.obs l d r hl w).1 he
  refine ⟨u, a, q2, ?_⟩
  have step : ∀ {p q}, (m.g.trimmed H r).Edge p q → m.g.Desc d q → H.Edge p q := by
    intro p q e hq
    obtain ⟨e1, e2⟩ := mem_trimmed.1 e
    by_cases hqr : q ∈ r
    · exact e2 hqr
    · refine h.other p q e1 (fun hqo => ?_)
      rw [hl] at hqo
      simp only [List.mem_append, List.mem_cons] at hqo
      rcases hqo with hq' | rfl | hq'
      · have := ho.sorted
        rw [hl, List.pairwise_append] at this
        exact this.2.2 q hq' d (by simp) hq
      · exact hc.wf.acyclic _ hq
      · exact hqr hq'
  have : ∀ v, (m.g.trimmed H r).Desc d v → H.Desc d v := by
    intro v hv
    induction hv with
    | single e => exact .single (step e (.single (mem_trimmed.1 e).1))
    | tail hv e ih => exact .tail ih (step e (.tail (TransGen.mono (fun _ _ q => (mem_trimmed.1 q).1) _ _ hv) (mem_trimmed.1 e).1))
  exact this u q3

/-- **C115** A node that is not a decision has positive value of control exactly if it has direct value of control or there is a response
incentive on it for some decision. -/
theorem C115_voc {net : Net} (h : net.Analysable) (hN : NamesOk net.g) {pick : Pick} {tpick : List Node → Nat}
    {setOrd : ListOrder} (hset : ∀ l, (setOrd l).Perm l) (h1 : net.m.agents.length ≤ 1) (hr : net.m.Recalls) {x : Node}
    (hx : x ∈ net.g.nodes) (hxd : ∀ a, net.m.role x ≠ .decision a) :
    admitsVoc pick tpick setOrd net x = .ok true ↔ admitsDirVoc pick tpick setOrd net x = .ok true ∨
      ∃ d a, net.m.role d = .decision a ∧ admitsRi pick tpick setOrd net d x = .ok true := by
  obtain ⟨rg, o, a1, _, a2, a3, _⟩ := h.requisiteGraph pick tpick hset
  obtain ⟨b, k1, k2⟩ := C56_admits_voc h hN hset h1 hr hx a1
  obtain ⟨b', l1, l2⟩ := C56_admits_dir_voc h hN hset h1 hr hx a1
  have hdn : ∀ {d a}, net.m.role d = .decision a → d ∈ net.g.nodes := fun {d a} hd => h.roles.nodes d (Or.inl (Dict.mem_keys.2 ⟨a, role_decision.1 hd⟩))
  have ri : ∀ {d a}, net.m.role d = .decision a → (admitsRi pick tpick setOrd net d x = .ok true ↔ x ≠ d ∧ ∃ p, rg.g.IsDirPath x d p) := by
    intro d a hd
    obtain ⟨r1, c, _, q1, _, _, c1, c2⟩ := C54_admits_ri h hN pick tpick hset h1 hr hx (hdn hd)
    rw [a1] at q1
    cases q1
    rw [c1, ok_inj, c2]
  rw [k1, l1, ok_inj, ok_inj, k2, l2]
  constructor
  · rintro ⟨_, u, a, hu, hd⟩
    obtain ⟨p, hp⟩ := descEq_iff_path.1 hd
    by_cases hq : ∀ v ∈ p, ∀ e, net.m.role v ≠ .decision e
    · exact .inl ⟨u, a, p, hu, hp, hq⟩
    · push Not at hq
      obtain ⟨v, hv, e, hve⟩ := hq
      refine .inr ⟨v, e, hve, (ri hve).2 ⟨fun q => hxd e (q ▸ hve), ?_⟩⟩
      obtain ⟨p1, p2, rfl⟩ := List.append_of_mem hv
      obtain ⟨i1, _, i3⟩ := hp
      refine ⟨p1 ++ [v], ?_, by simp, ?_⟩
      · cases p1 with
        | nil => simpa using i1
        | cons c p1 => simpa using i1
      · rw [show p1 ++ v :: p2 = (p1 ++ [v]) ++ p2 by simp] at i3
        exact (List.isChain_append.1 i3).1
  · rintro (⟨u, a, p, hu, hp, _⟩ | ⟨d, a, hd, hri⟩)
    · exact ⟨hxd, u, a, hu, descEq_iff_path.2 ⟨p, hp⟩⟩
    · obtain ⟨hne, hp⟩ := (ri hd).1 hri
      have hxd' : rg.g.DescEq x d := descEq_iff_path.2 hp
      rcases ReflTransGen.cases_tail hxd' with q | ⟨w, _, hw⟩
      · exact absurd q.symm hne
      · obtain ⟨u, c, hu, hdu⟩ := IsRequisiteGraph.useful h.roles a2 a3 ((a2.all d).2 ⟨a, hd⟩) hw
        exact ⟨hxd, u, c, hu, hxd'.trans hdu.to_reflTransGen⟩

/-- without a decision below `d`, the requisite graph has all edges below `d` -/
theorem IsRequisiteGraph.last {m : Macid} {order : List Node} {H : Graph} (ho : m.IsOrder order) (h : m.IsRequisiteGraph order H)
    {d x u : Node} (hl : ∀ e a, m.role e = .decision a → ¬ m.g.Desc d e) (hx : m.g.DescEq d x) (hu : m.g.DescEq x u) : H.DescEq x u := by
  induction hu with
  | refl => exact .refl
  | tail hv e ih =>
    refine .tail ih (h.other _ _ e (fun q => ?_))
    obtain ⟨a, ha⟩ := (ho.all _).1 q
    exact hl _ a ha (TransGen.tail' (hx.trans hv) e)

/-- **C115** If no decision comes after `d`, there is an instrumental control incentive on a node other than `d` exactly if the node is
downstream of `d` and has direct value of control. -/
theorem C115_ici {net : Net} (h : net.Analysable) (hN : NamesOk net.g) {pick : Pick} {tpick : List Node → Nat}
    {setOrd : ListOrder} (hset : ∀ l, (setOrd l).Perm l) (h1 : net.m.agents.length ≤ 1) (hr : net.m.Recalls) {x d : Node}
    (hx : x ∈ net.g.nodes) (hd : d ∈ net.g.nodes) (hl : ∀ e a, net.m.role e = .decision a → ¬ net.g.Desc d e) (hxd : x ≠ d) :
    admitsIci net d x = .ok true ↔ net.g.Desc d x ∧ admitsDirVoc pick tpick setOrd net x = .ok true := by
  obtain ⟨rg, o, a1, _, a2, a3, _⟩ := h.requisiteGraph pick tpick hset
  obtain ⟨b', l1, l2⟩ := C56_admits_dir_voc h hN hset h1 hr hx a1
  rw [C55_between h.roles h1 hx hd, l1, ok_inj, l2]
  constructor
  · rintro ⟨q1, u, a, q2, q3⟩
    have hdx : net.g.Desc d x := by
      rcases reflTransGen_iff_eq_or_transGen.1 q1 with q | q
      · exact absurd q hxd
      · exact q
    have hp := IsRequisiteGraph.last a2 a3 hl q1 q3
    refine ⟨hdx, ?_⟩
    obtain ⟨p, hp⟩ := descEq_iff_path.1 hp
    refine ⟨u, a, p, q2, hp, fun v hv e hve => ?_⟩
    obtain ⟨p1, p2, rfl⟩ := List.append_of_mem hv
    have : rg.g.DescEq x v := by
      refine descEq_iff_path.2 ⟨p1 ++ [v], ?_, by simp, ?_⟩
      · have := hp.1
        cases p1 with
        | nil => simpa using this
        | cons c p1 => simpa using this
      · have := hp.2.2
        rw [show p1 ++ v :: p2 = (p1 ++ [v]) ++ p2 by simp] at this
        exact (List.isChain_append.1 this).1
    exact hl v e hve (hdx.trans_left (ReflTransGen.mono (fun _ _ => a3.sub _ _) _ _ this))
  · rintro ⟨q1, u, a, p, q2, q3, _⟩
    exact ⟨q1.to_reflTransGen, u, a, q2, ReflTransGen.mono (fun _ _ => a3.sub _ _) _ _ (descEq_iff_path.2 ⟨p, q3⟩)⟩

/-- **C115** In a diagram with one decision there is a response incentive on a node exactly if it is, or influences, an observation with
value of information. -/
theorem C115_ri_voi {net : Net} (h : net.Analysable) (hN : NamesOk net.g) (pick : Pick) (tpick : List Node → Nat)
    {setOrd : ListOrder} (hset : ∀ l, (setOrd l).Perm l) (h1 : net.m.agents.length ≤ 1) {x d : Node}
    (hx : x ∈ net.g.nodes) {a : Agent} (hd : net.m.role d = .decision a) (hone : ∀ e b, net.m.role e = .decision b → e = d) :
    admitsRi pick tpick setOrd net d x = .ok true ↔
      ∃ w, net.g.Edge w d ∧ net.g.DescEq x w ∧ admitsVoi pick tpick setOrd net d w = .ok true := by
  have hw := h.roles.wf
  have hdn : d ∈ net.g.nodes := h.roles.nodes d (Or.inl (Dict.mem_keys.2 ⟨a, role_decision.1 hd⟩))
  have hr : net.m.Recalls := by
    intro b ds hds c hc
    have hsub : ∀ e ∈ ds, e = d := fun e he => hone e b ((hds e).1 he)
    rcases TransGen.head'_iff.1 hc with ⟨c', ⟨q1, q2, q3, _⟩, _⟩
    exact q3 ((hsub _ q1).trans (hsub _ q2).symm)
  obtain ⟨rg, b, order, _, j2, j3, j4, j5⟩ := C54_admits_ri h hN pick tpick hset h1 hr hx hdn
  have ho := IsOrder.single hd hone j2
  subst ho
  have voi : ∀ w, net.g.Edge w d → (admitsVoi pick tpick setOrd net d w = .ok true ↔ rg.g.Edge w d) := by
    intro w hwd
    obtain ⟨c, c1, c2⟩ := C52_single_decision h hN pick tpick hset h1 (hw.edgeNodes _ _ hwd).1 hd hone
    rw [c1, ok_inj, c2, j3.single w]
    have hnd : ¬ net.g.DescEq d w := fun q => hw.acyclic d (TransGen.tail' q hwd)
    simp only [hnd, not_false_eq_true, true_and]
    refine Requisite.congr (m := net.m) (m' := net.m.onGraph (net.g.plus w d)) (fun _ => rfl) (fun u v => ?_) d w
    show (net.g.plus w d).Edge u v ↔ net.g.Edge u v
    simp only [Graph.Edge, plus, List.mem_cons, Prod.mk.injEq]
    constructor
    · rintro (⟨rfl, rfl⟩ | q)
      · exact hwd
      · exact q
    · exact .inr
  rw [j4, ok_inj, j5]
  constructor
  · rintro ⟨hne, hp⟩
    rcases ReflTransGen.cases_tail (descEq_iff_path.2 hp) with q | ⟨w, hxw, hwd⟩
    · exact absurd q.symm hne
    · exact ⟨w, j3.sub _ _ hwd, ReflTransGen.mono (fun _ _ => j3.sub _ _) _ _ hxw, (voi w (j3.sub _ _ hwd)).2 hwd⟩
  · rintro ⟨w, hwd, hxw, hv⟩
    have hk : ∀ v, net.g.DescEq x v → net.g.DescEq v w → rg.g.DescEq x v := by
      intro v hv
      induction hv with
      | refl => exact fun _ => .refl
      | tail _ e ih =>
        intro q
        refine .tail (ih (.head e q)) (j3.other _ _ e (fun q' => ?_))
        rw [List.mem_singleton] at q'
        subst q'
        exact hw.acyclic _ (TransGen.tail' q hwd)
    refine ⟨fun q => ?_, descEq_iff_path.1 (.tail (hk w hxw .refl) ((voi w hwd).1 hv))⟩
    subst q
    exact hw.acyclic _ (TransGen.tail' hxw hwd)

/-- **C115** What can be learned before the decision and what can be influenced by it exclude each other: no node other than the decision
has both an instrumental control incentive and value of information, or both an instrumental control incentive and a response incentive. -/
theorem C115_apart {net : Net} (h : net.Analysable) (hN : NamesOk net.g) (pick : Pick) (tpick : List Node → Nat)
    {setOrd : ListOrder} (hset : ∀ l, (setOrd l).Perm l) (h1 : net.m.agents.length ≤ 1) (hr : net.m.Recalls) {x d : Node}
    (hx : x ∈ net.g.nodes) (hd : d ∈ net.g.nodes) (hi : admitsIci net d x = .ok true) :
    admitsVoi pick tpick setOrd net d x = .ok false ∧ admitsRi pick tpick setOrd net d x = .ok false := by
  obtain ⟨q, _⟩ := (C55_between h.roles h1 hx hd).1 hi
  refine ⟨(C52_admits_voi h hN pick tpick hset h1 hr hx hd).1 q, ?_⟩
  obtain ⟨rg, b, order, _, j2, j3, j4, j5⟩ := C54_admits_ri h hN pick tpick hset h1 hr hx hd
  rw [j4, ok_inj]
  by_contra hb
  obtain ⟨hne, hp⟩ := j5.1 (by simpa using hb)
  have hxd := ReflTransGen.mono (fun _ _ => j3.sub _ _) _ _ (descEq_iff_path.2 hp)
  rcases reflTransGen_iff_eq_or_transGen.1 q with e | e
  · exact hne e
  · exact h.roles.wf.acyclic d (e.trans_left hxd)

/-- the decision observes `O`, which depends on `X` and on the hidden state `C` -/
def exBlurred : Macid :=
  ⟨⟨["X", "O", "D", "U", "C"], [("X", "O"), ("O", "D"), ("D", "U"), ("C", "O"), ("C", "U")]⟩, [(0, ["D"])], [(0, ["U"])], [("D", 0)], [("U", 0)]⟩

def exBlurredNet : Net := ⟨exBlurred, [], [], [], Macid.new⟩

theorem exBlurred_analysable : exBlurredNet.Analysable := by
  refine ⟨C15_constructor_consistent [("X", "O"), ("O", "D"), ("D", "U"), ("C", "O"), ("C", "U")] [(0, ["D"])] [(0, ["U"])] _
    (by decide +kernel) (by decide) (by decide) (by decide) (by decide), .inl rfl, ⟨fun a => Iff.rfl, fun a ha => Or.inl ?_⟩, .inl rfl⟩
  have : a = 0 := by simpa [exBlurredNet, exBlurred, Dict.keys] using ha
  subst this
  exact ⟨⟨"D", by decide⟩, ⟨"U", by decide⟩⟩

/-- **C115** Value of control need not be direct or indirect: `X` has value of control, but neither direct nor indirect value of control
as `admits_dir_voc` and `admits_indir_voc` have it, because no back-door path leaves `X`. -/
theorem C115_neither : exBlurredNet.Analysable ∧ NamesOk exBlurredNet.g ∧ exBlurredNet.m.agents.length ≤ 1 ∧
    admitsVoc (fun _ => 0) (fun _ => 0) id exBlurredNet "X" = .ok true ∧ admitsDirVoc (fun _ => 0) (fun _ => 0) id exBlurredNet "X" = .ok false ∧
    admitsIndirVoc (fun _ => 0) (fun _ => 0) SetOrder.id id exBlurredNet "D" "X" = .ok false ∧
    admitsRi (fun _ => 0) (fun _ => 0) id exBlurredNet "D" "X" = .ok true ∧ admitsVoi (fun _ => 0) (fun _ => 0) id exBlurredNet "D" "O" = .ok true :=
  ⟨exBlurred_analysable, ⟨by decide +kernel, by decide +kernel⟩, by decide, by decide +kernel, by decide +kernel, by decide +kernel,
    by decide +kernel, by decide +kernel⟩

/-- the same diagram, nodes and edges added in another order -/
def exBlurredNet' : Net :=
  ⟨⟨⟨["C", "U", "O", "D", "X"], [("C", "U"), ("C", "O"), ("D", "U"), ("O", "D"), ("X", "O")]⟩, [(0, ["D"])], [(0, ["U"])], [("D", 0)], [("U", 0)]⟩,
    [], [], [], Macid.new⟩

theorem exBlurred_recalls : exBlurredNet.m.Recalls := by
  intro b ds hds c hc
  have hsub : ∀ e ∈ ds, e = "D" := fun e he => by
    have := (hds e).1 he
    have := decisions_role.2 ⟨b, this⟩
    simpa [exBlurredNet, exBlurred, Macid.decisions, Dict.keys] using this
  rcases TransGen.head'_iff.1 hc with ⟨c', ⟨q1, q2, q3, _⟩, _⟩
  exact q3 ((hsub _ q1).trans (hsub _ q2).symm)

/-- the hypotheses of `C115_requisite_graph` and `C115_same_answers` are met by a diagram and the same diagram written in another order -/
theorem C115_example : exBlurredNet.Analysable ∧ exBlurredNet'.Analysable ∧ exBlurredNet.m.Recalls ∧ exBlurredNet.m.agents.length ≤ 1 ∧
    (∀ v, v ∈ exBlurredNet'.g.nodes ↔ v ∈ exBlurredNet.g.nodes) ∧ (∀ u v, exBlurredNet'.g.Edge u v ↔ exBlurredNet.g.Edge u v) ∧
    (∀ v, exBlurredNet'.m.role v = exBlurredNet.m.role v) ∧ exBlurredNet'.g.nodes ≠ exBlurredNet.g.nodes := by
  refine ⟨exBlurred_analysable, ⟨C15_constructor_consistent [("C", "U"), ("C", "O"), ("D", "U"), ("O", "D"), ("X", "O")] [(0, ["D"])] [(0, ["U"])] _
    (by decide +kernel) (by decide) (by decide) (by decide) (by decide), .inl rfl, ⟨fun a => Iff.rfl, fun a ha => Or.inl ?_⟩, .inl rfl⟩, exBlurred_recalls,
    by decide, ?_, ?_, fun v => rfl, by decide⟩
  · have : a = 0 := by simpa [exBlurredNet', Dict.keys] using ha
    subst this
    exact ⟨⟨"D", by decide⟩, ⟨"U", by decide⟩⟩
  · intro v
    simp only [Net.g, exBlurredNet', exBlurredNet, exBlurred, List.mem_cons, List.not_mem_nil, or_false]
    tauto
  · intro u v
    simp only [Net.g, exBlurredNet', exBlurredNet, exBlurred, Graph.Edge, List.mem_cons, List.not_mem_nil, or_false]
    tauto

end Verif

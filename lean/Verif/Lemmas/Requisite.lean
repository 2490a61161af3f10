import Verif.Model.Analyze
import Verif.Spec.Analyze
import Verif.Lemmas.Optimal
import Verif.Lemmas.Relevance
import Verif.Lemmas.Enumerate
import Verif.Props.Structure
import Verif.Props.Copy

/-!
# Requisite observations
-/

namespace Verif

open Graph Relation Macid

/-- order of listing does not matter -/
theorem perm_mem {ord : ListOrder} (h : ∀ l, (ord l).Perm l) {l : List Node} {x : Node} : x ∈ ord l ↔ x ∈ l := (h l).mem_iff

/-- the tested property decides membership -/
theorem filterM'_spec {α : Type} {f : α → Py Bool} {P : α → Prop} [DecidablePred P] {xs : List α}
    (h : ∀ x ∈ xs, ∃ b, f x = .ok b ∧ (b = true ↔ P x)) : filterM' f xs = .ok (xs.filter (fun x => decide (P x))) := by
  induction xs with
  | nil => rfl
  | cons x xs ih =>
    obtain ⟨b, h1, h2⟩ := h x (by simp)
    have h3 := ih (fun y hy => h y (by simp [hy]))
    unfold filterM'
    simp only [h1, h3]
    cases b with
    | true => simp [h2.1 rfl]
    | false =>
      have : ¬ P x := fun hp => by simpa using h2.2 hp
      simp [this]

namespace Macid

theorem requisite_spec {m : Macid} (hc : m.Consistent) {pick : Pick} {setOrd : ListOrder} (hset : ∀ l, (setOrd l).Perm l) {d x : Node}
    {a : Agent} (hd : m.role d = .decision a) (ha : a ∈ m.agentUtilities.keys) (hx : m.g.Edge x d) :
    ∃ b, requisite pick setOrd m d x = .ok b ∧ (b = true ↔ m.Requisite d x) := by
  have hdn : d ∈ m.g.nodes := hc.nodes d (Or.inl (Dict.mem_keys.2 ⟨a, role_decision.1 hd⟩))
  have hxn := (hc.wf.edgeNodes _ _ hx).1
  obtain ⟨us, hus⟩ := Dict.mem_keys.1 ha
  unfold requisite
  rw [if_neg (by simpa using hdn), if_neg (by simpa using Graph.mem_parents.2 hx), Dict.get_ok.2 (role_decision.1 hd)]
  simp only [Dict.get_ok.2 hus]
  have hZ : ∀ z, z ∈ (d :: m.g.parents d).filter (fun i => decide (i ≠ x)) ↔ z ≠ x ∧ (z = d ∨ m.g.Edge z d) := by
    intro z
    simp only [List.mem_filter, List.mem_cons, Graph.mem_parents, decide_eq_true_eq]
    exact and_comm
  obtain ⟨b, h1, h2⟩ := anyM_spec (f := fun u => isDConnected pick m.g x u ((d :: m.g.parents d).filter (fun i => decide (i ≠ x))))
    (P := fun u => m.g.DConn x u ((d :: m.g.parents d).filter (fun i => decide (i ≠ x))))
    (xs := setOrd (us.filter (fun u => decide (u ∈ m.g.descendants d))).dedup) (fun u _ =>
      isDConnected_spec hc.wf pick hxn (fun z hz => by
        obtain ⟨_, rfl | h⟩ := (hZ z).1 hz
        · exact hdn
        · exact (hc.wf.edgeNodes _ _ h).1))
  refine ⟨b, h1, h2.trans ?_⟩
  have hmem : ∀ u, u ∈ setOrd (us.filter (fun u => decide (u ∈ m.g.descendants d))).dedup ↔ m.role u = .utility a ∧ m.g.Desc d u := by
    intro u
    rw [perm_mem hset]
    simp only [List.mem_dedup, List.mem_filter, decide_eq_true_eq, mem_descendants hc.wf]
    rw [role_utility hc, hc.util.iff, hus]
    simp
  constructor
  · rintro ⟨u, hu, hcon⟩
    obtain ⟨q1, q2⟩ := (hmem u).1 hu
    exact ⟨hx, a, u, hd, q1, q2, _, hZ, hcon⟩
  · rintro ⟨_, a', u, q0, q1, q2, Z, q3, q4⟩
    rw [hd] at q0
    cases q0
    refine ⟨u, (hmem u).2 ⟨q1, q2⟩, ?_⟩
    have : ∀ z, z ∈ Z ↔ z ∈ (d :: m.g.parents d).filter (fun i => decide (i ≠ x)) := fun z => (q3 z).trans (hZ z).symm
    obtain ⟨w1, w2, p, w3, w4⟩ := q4
    refine ⟨fun h => w1 ((this _).2 h), fun h => w2 ((this _).2 h), p, w3, fun l e f g r hp => ?_⟩
    obtain ⟨k1, k2⟩ := w4 l e f g r hp
    exact ⟨fun h => by obtain ⟨z, hz, hz'⟩ := k1 h; exact ⟨z, (this z).1 hz, hz'⟩, fun h h' => k2 h ((this _).2 h')⟩

theorem requisiteList_spec {m : Macid} (hc : m.Consistent) {pick : Pick} {setOrd : ListOrder} (hset : ∀ l, (setOrd l).Perm l) {d : Node}
    {a : Agent} (hd : m.role d = .decision a) (ha : a ∈ m.agentUtilities.keys) :
    ∃ l, requisiteList pick setOrd m d = .ok l ∧ ∀ x, x ∈ l ↔ m.Requisite d x := by
  classical
  have hdn : d ∈ m.g.nodes := hc.nodes d (Or.inl (Dict.mem_keys.2 ⟨a, role_decision.1 hd⟩))
  unfold requisiteList
  rw [if_neg (by simpa using hdn)]
  refine ⟨_, filterM'_spec (P := m.Requisite d) (fun x hx => requisite_spec hc hset hd ha (Graph.mem_parents.1 hx)), fun x => ?_⟩
  simp only [List.mem_filter, decide_eq_true_eq, Graph.mem_parents]
  exact ⟨fun h => h.2, fun h => ⟨h.1, h⟩⟩

end Macid

/-! ### CPDs that do not look at the parents can be recomputed for any parents -/

theorem possible_const {d : Dict Outcome (Option Rat)} {pvs : List PV} (h : pvs ≠ []) :
    possibleValues (constFunc d) pvs = .ok (d.keys.dedup.insertionSort (· ≤ ·)) := by
  have hm : mapPy (stochasticFunction (constFunc d)) pvs = .ok (pvs.map (fun _ => d)) :=
    mapPy_map (fun _ _ => rfl)
  unfold possibleValues
  rw [hm]
  simp only
  congr 1
  have hp : ((pvs.map (fun _ => d)).flatMap Dict.keys).dedup.Perm d.keys.dedup := by
    rw [List.perm_ext_iff_of_nodup (List.nodup_dedup _) (List.nodup_dedup _)]
    intro x
    obtain ⟨pv, hpv⟩ := List.exists_mem_of_ne_nil _ h
    simp only [List.mem_dedup, List.mem_flatMap, List.mem_map]
    constructor
    · rintro ⟨y, ⟨_, _, rfl⟩, hx⟩
      exact hx
    · intro hx
      exact ⟨d, ⟨pv, hpv, rfl⟩, hx⟩
  apply List.Perm.eq_of_pairwise (le := (· ≤ ·)) (fun a b _ _ => le_antisymm)
  · exact List.pairwise_insertionSort _ _
  · exact List.pairwise_insertionSort _ _
  · exact ((List.perm_insertionSort _ _).trans hp).trans (List.perm_insertionSort _ _).symm

theorem product_ne_nil {α : Type} {ds : List (List α)} (h : ∀ d ∈ ds, d ≠ []) : product ds ≠ [] := by
  rw [← List.length_pos_iff, length_product]
  apply Nat.pos_of_ne_zero
  rw [Ne, List.prod_eq_zero_iff]
  rintro hm
  obtain ⟨l, hl, h0⟩ := List.mem_map.1 hm
  exact h l hl (List.length_eq_zero_iff.1 h0)

theorem mkCpd_reparent {kind : CpdKind} {v : Node} {d : Dict Outcome (Option Rat)} {force : Option (List Outcome)} {ps : List Node}
    {dom : Dict Node (List Outcome)} {card : Node → Py Nat} {c : Cpd} (h : mkCpd kind v (constFunc d) force ps dom card = .ok c)
    (hne : ∀ p ∈ ps, ∀ l, dom.get? p = some l → l ≠ []) {ps' : List Node}
    (hps' : ∀ p ∈ ps', ∃ l, dom.get? p = some l ∧ l ≠ []) :
    ∃ c', mkCpd kind v (constFunc d) force ps' dom (cardOf dom) = .ok c' ∧ c'.domain = c.domain ∧ c'.kind = kind ∧ c'.var = v ∧
      c'.evidence = ps' := by
  obtain ⟨ds, possible, domain, cards, cols, h1, h2, h3, h4, h5, h6, h7, h8, h9, rfl⟩ := mkCpd_ok_iff.1 h
  have hds : ∀ l ∈ ds, l ≠ [] := by
    intro l hl
    obtain ⟨p, hp, hpl⟩ := mapPy_mem' h1 hl
    exact hne p hp l (domOf_ok.1 hpl)
  have hne1 : (product ds).map (pvOf ps) ≠ [] := by
    simpa using product_ne_nil hds
  choose! δ hδ using hps'
  have e1 : parentDoms ps' dom = .ok (ps'.map δ) := mapPy_map (fun p hp => domOf_ok.2 (hδ p hp).1)
  have hne2 : (product (ps'.map δ)).map (pvOf ps') ≠ [] := by
    have : product (ps'.map δ) ≠ [] := product_ne_nil (by
      intro l hl
      obtain ⟨p, hp, rfl⟩ := List.mem_map.1 hl
      exact (hδ p hp).2)
    simpa using this
  rw [possible_const hne1] at h2
  cases h2
  -- the column
  obtain ⟨pv, hpv⟩ := List.exists_mem_of_ne_nil _ hne1
  obtain ⟨col, hcol, hcol'⟩ := mapPy_mem h5 hpv
  have hcolAll : ∀ pv, colFor (constFunc d) domain pv = .ok col := fun _ => hcol'
  have e5 : mapPy (colFor (constFunc d) domain) ((product (ps'.map δ)).map (pvOf ps')) =
      .ok (((product (ps'.map δ)).map (pvOf ps')).map (fun _ => col)) := mapPy_map (fun pv _ => hcolAll pv)
  have e4 : mapPy (cardOf dom) ps' = .ok (ps'.map (fun p => (δ p).length)) := mapPy_map (fun p hp => by
    unfold cardOf; rw [(hδ p hp).1])
  refine ⟨_, mkCpd_ok_iff.2 ⟨_, _, domain, _, _, e1, possible_const hne2, h3, e4, e5, ?_, ?_, ?_, h9, rfl⟩, rfl, rfl, rfl, rfl⟩
  · rw [List.all_eq_true] at h6 ⊢
    intro x hx
    obtain ⟨_, _, rfl⟩ := List.mem_map.1 hx
    exact h6 _ hcol
  · rw [List.all_eq_true] at h7 ⊢
    intro x hx
    obtain ⟨_, _, rfl⟩ := List.mem_map.1 hx
    exact h7 _ hcol
  · simp [length_product, Function.comp_def]

namespace Net

/-- what removing and adding edges needs -/
structure Stable (net : Net) : Prop where
  full : ∀ p ∈ net.g.nodes, ∃ c, net.cpds.get? p = some c ∧ net.domain.get? p = some c.domain ∧ c.domain ≠ []
  redo : ∀ v r c, net.rels.get? v = some r → net.cpds.get? v = some c → (c.kind = .constant ∨ c.kind = .decision) →
    (r = .tab c ∧ c.var = v ∧ ∀ p ∈ c.evidence, p ∈ net.g.nodes) ∨
    ∃ ps, (∀ p ∈ ps, p ∈ net.g.nodes) ∧
      ((∃ d, r = .dist d ∧ mkCpd .constant v (constFunc d) none ps net.domain (cardOf net.domain) = .ok c) ∨
       (∃ l, r = .seq l ∧ mkCpd .decision v (constFunc []) (some l) ps net.domain (cardOf net.domain) = .ok c))

theorem Good.stable {net : Net} (hG : net.Good) : net.Stable := by
  refine ⟨fun p hp => ?_, fun v r c hr hc hk => ?_⟩
  · obtain ⟨c, h1, h2⟩ := hG.complete p hp
    exact ⟨c, h1, h2, (hG.cpdOk p c h1).nonempty⟩
  · obtain ⟨h1, r', hr', hcomp⟩ := hG.reflects v c hc
    rw [hr] at hr'
    cases hr'
    have hpn : ∀ p ∈ net.g.parents v, p ∈ net.g.nodes := fun p hp => (hG.wf.edgeNodes _ _ (Graph.mem_parents.1 hp)).1
    cases r with
    | tab c1 =>
      left
      unfold computed at hcomp
      cases hcomp
      exact ⟨rfl, (hG.fits v c hc).var, fun p hp => (hG.wf.edgeNodes _ _ (((hG.fits v c hc).parents p).1 hp)).1⟩
    | func f =>
      exfalso
      unfold computed at hcomp
      obtain ⟨f1, f2, f3, f4, f5, f6⟩ := mkCpd_fields hcomp
      rcases hk with hk | hk <;> simp_all
    | dist d =>
      right
      unfold computed at hcomp
      exact ⟨_, hpn, Or.inl ⟨d, rfl, hcomp⟩⟩
    | seq l =>
      right
      unfold computed at hcomp
      exact ⟨_, hpn, Or.inr ⟨l, rfl, hcomp⟩⟩

theorem Stable.withGraph {net : Net} (h : net.Stable) {g : Graph} (hg : ∀ v, v ∈ g.nodes ↔ v ∈ net.g.nodes) :
    (net.withGraph g).Stable := by
  refine ⟨fun p hp => h.full p ((hg p).1 hp), fun v r c hr hc hk => ?_⟩
  rcases h.redo v r c hr hc hk with ⟨h1, h2, h3⟩ | ⟨ps, h1, h2⟩
  · exact Or.inl ⟨h1, h2, fun p hp => (hg p).2 (h3 p hp)⟩
  · exact Or.inr ⟨ps, fun p hp => (hg p).2 (h1 p hp), h2⟩

/-- refreshing a CPD that does not look at the parents works for any parents -/
theorem Stable.refresh {net : Net} (h : net.Stable) {v : Node} (hv : v ∈ net.g.nodes)
    (hp : ∀ p, net.g.Edge p v → p ∈ net.g.nodes ∧ p ≠ v) :
    ∃ net', net.refresh v = (net', .ok ()) ∧ net'.Stable ∧ OnlyRules net [v] net' ∧ net'.rels.get? v = net.rels.get? v ∧
      (net.rels.get? v ≠ none → net.isConstant v = true → ∃ c, net'.cpds.get? v = some c ∧ ∀ r, net.rels.get? v = some r →
        computed net.g net.domain v r = .ok c) := by
  obtain ⟨c, hc, hcd, hne⟩ := h.full v hv
  unfold Net.refresh
  cases hr : net.rels.get? v with
  | none => exact ⟨net, rfl, h, .rfl' _ _, hr, fun h => absurd rfl h⟩
  | some r =>
    simp only
    by_cases hk : net.isConstant v = true
    · rw [if_pos hk]
      have hk' : c.kind = .constant ∨ c.kind = .decision := by
        unfold isConstant at hk
        simp only [hc, decide_eq_true_eq] at hk
        exact hk
      have hdomne : ∀ p ∈ net.g.nodes, ∃ l, net.domain.get? p = some l ∧ l ≠ [] := fun p hp => by
        obtain ⟨c, _, h2, h3⟩ := h.full p hp
        exact ⟨_, h2, h3⟩
      -- the new CPD
      obtain ⟨c', hto, e1, e2, e3, e4, e5⟩ : ∃ c', (stage net v r).toCpd v r = .ok c' ∧ c'.domain = c.domain ∧ c'.var = v ∧
          (∀ p ∈ c'.evidence, p ∈ net.g.nodes) ∧ computed net.g net.domain v r = .ok c' ∧
          ((r = .tab c' ∧ c'.var = v ∧ ∀ p ∈ c'.evidence, p ∈ net.g.nodes) ∨
            ∃ ps, (∀ p ∈ ps, p ∈ net.g.nodes) ∧
            ((∃ d, r = .dist d ∧ mkCpd .constant v (constFunc d) none ps net.domain (cardOf net.domain) = .ok c') ∨
             (∃ l, r = .seq l ∧ mkCpd .decision v (constFunc []) (some l) ps net.domain (cardOf net.domain) = .ok c'))) := by
        have hv' : v ∈ (stage net v r).g.nodes := hv
        have hcong : ∀ kind f force, mkCpd kind v f force ((stage net v r).g.parents v) (stage net v r).domain (stage net v r).card =
            mkCpd kind v f force (net.g.parents v) net.domain (cardOf net.domain) := by
          intro kind f force
          refine mkCpd_congr (fun _ _ => rfl) (fun p hp' => ?_)
          have hp' : p ∈ net.g.parents v := hp'
          obtain ⟨q1, q2⟩ := hp p (Graph.mem_parents.1 hp')
          obtain ⟨cp, k1, k2, _⟩ := h.full p q1
          have : p ∈ (stage net v r).g.nodes := q1
          simp only [card, getCpd, this, if_true, stage_cpds, if_neg q2, k1, cardOf, k2]
        have hpar : ∀ p ∈ net.g.parents v, ∃ l, net.domain.get? p = some l ∧ l ≠ [] :=
          fun p hp' => hdomne p (hp p (Graph.mem_parents.1 hp')).1
        have hold : ∀ ps : List Node, (∀ p ∈ ps, p ∈ net.g.nodes) → ∀ p ∈ ps, ∀ l, net.domain.get? p = some l → l ≠ [] := by
          intro ps hps p hp l hl
          obtain ⟨l', h1, h2⟩ := hdomne p (hps p hp)
          rw [hl] at h1
          cases h1
          exact h2
        rcases h.redo v r c hr hc hk' with ⟨rfl, h2, h3⟩ | ⟨ps, hps, ⟨d, rfl, hm⟩ | ⟨l, rfl, hm⟩⟩
        · exact ⟨c, rfl, rfl, h2, h3, rfl, Or.inl ⟨rfl, h2, h3⟩⟩
        · obtain ⟨c', q1, q2, q3, q4, q5⟩ := mkCpd_reparent hm (hold ps hps) hpar
          refine ⟨c', ?_, q2, q4, fun p hp' => (hp p (Graph.mem_parents.1 (q5 ▸ hp'))).1, q1, Or.inr ⟨_, fun p hp' =>
            (hp p (Graph.mem_parents.1 hp')).1, Or.inl ⟨d, rfl, q1⟩⟩⟩
          unfold toCpd
          simp only [hv', if_true]
          rw [hcong]
          exact q1
        · obtain ⟨c', q1, q2, q3, q4, q5⟩ := mkCpd_reparent hm (hold ps hps) hpar
          refine ⟨c', ?_, q2, q4, fun p hp' => (hp p (Graph.mem_parents.1 (q5 ▸ hp'))).1, q1, Or.inr ⟨_, fun p hp' =>
            (hp p (Graph.mem_parents.1 hp')).1, Or.inr ⟨l, rfl, q1⟩⟩⟩
          unfold toCpd
          simp only [hv', if_true]
          rw [hcong]
          exact q1
      have hset : net.set v r = (put net v r c', .ok ()) := by
        unfold Net.set
        rcases setItem_cases net.g.nodes.length net v r with ⟨h1, _⟩ | ⟨e, _, h1, _⟩ | ⟨c1, h1, h2⟩
        · rw [hto] at h1; simp at h1
        · rw [hto] at h1; simp at h1
        · rw [hto] at h1
          cases h1
          have hall : ∀ x ∈ c'.var :: c'.evidence, x ∈ net.g.nodes := by
            intro x hx
            rcases List.mem_cons.1 hx with rfl | hx
            · rw [e2]; exact hv
            · exact e3 x hx
          rcases h2 with ⟨h, _⟩ | ⟨_, h, _⟩ | ⟨_, _, _, _, h⟩ | ⟨_, _, h, _⟩
          · exact absurd hall h
          · exact absurd e2 h
          · exact h
          · exact absurd ⟨e1 ▸ hne, e1 ▸ hcd⟩ h
      have hdom : (put net v r c').domain = net.domain := Dict.set_same (by rw [e1]; exact hcd)
      have hO : OnlyRules net [v] (put net v r c') := by
        refine ⟨rfl, rfl, hdom, fun w hw => ?_, fun w hw => ?_⟩
        · rw [put_cpds, if_neg (by simpa using hw)]
        · rw [put_rels, if_neg (by simpa using hw)]
      refine ⟨_, hset, ⟨fun p hp => ?_, fun w r' cw hrw hcw hkw => ?_⟩, hO, by rw [put_rels]; simp, fun _ _ =>
        ⟨c', by rw [put_cpds]; simp, fun r' hr' => ?_⟩⟩
      · rw [hdom, put_cpds]
        by_cases e : p = v
        · subst e; exact ⟨c', by simp, by rw [e1]; exact hcd, e1 ▸ hne⟩
        · rw [if_neg e]; exact h.full p hp
      · rw [put_rels] at hrw
        rw [put_cpds] at hcw
        rw [hdom]
        by_cases e : w = v
        · subst e
          simp only [if_true, Option.some.injEq] at hrw hcw
          subst hrw hcw
          exact e5
        · rw [if_neg e] at hrw hcw
          exact h.redo w r' cw hrw hcw hkw
      · cases hr'
        exact e4
    · rw [if_neg hk]
      exact ⟨net, rfl, h, .rfl' _ _, hr, fun _ h => absurd h hk⟩

/-- edges can be removed -/
def Trimmable (net : Net) : Prop := net.rels = [] ∨ net.Stable

theorem Trimmable.removeEdge {net : Net} (h : net.Trimmable) (hw : net.g.WF) {u v : Node} (he : net.g.Edge u v) :
    ∃ net', net.removeEdge u v = (net', .ok ()) ∧ net'.Trimmable ∧
      net'.m = net.m.onGraph ⟨net.g.nodes, net.g.edges.filter (fun e => decide (e ≠ (u, v)))⟩ ∧ net'.base = net.base := by
  have he' : (u, v) ∈ net.g.edges := he
  unfold Net.removeEdge Graph.removeEdge
  rw [if_pos he']
  simp only
  rcases h with h | h
  · unfold Net.refresh
    have : (net.withGraph ⟨net.g.nodes, net.g.edges.filter (fun e => decide (e ≠ (u, v)))⟩).rels.get? v = none := by
      show Dict.get? net.rels v = none
      rw [h]; rfl
    rw [this]
    exact ⟨_, rfl, Or.inl h, rfl, rfl⟩
  · obtain ⟨net', h1, h2, h3, _⟩ := (h.withGraph (g := ⟨net.g.nodes, net.g.edges.filter (fun e => decide (e ≠ (u, v)))⟩)
      (fun _ => Iff.rfl)).refresh (v := v) (hw.edgeNodes _ _ he).2 (fun p hp => by
        have hp' : net.g.Edge p v := (List.mem_filter.1 hp).1
        exact ⟨(hw.edgeNodes _ _ hp').1, fun e => hw.acyclic v (.single (e ▸ hp'))⟩)
    exact ⟨net', h1, Or.inr h2, h3.m, h3.base⟩

theorem wf_filter {g : Graph} (hw : g.WF) (p : Node × Node → Bool) : Graph.WF ⟨g.nodes, g.edges.filter p⟩ := by
  have hs : ∀ u v, Graph.Edge ⟨g.nodes, g.edges.filter p⟩ u v → g.Edge u v := fun u v h => (List.mem_filter.1 h).1
  exact ⟨hw.nodesNodup, hw.edgesNodup.filter _, fun u v h => hw.edgeNodes u v (hs u v h), fun v hv =>
    hw.acyclic v (TransGen.mono (fun a b h => hs a b h) _ _ hv)⟩

theorem Trimmable.removeEdges {d : Node} : ∀ (l : List Node) {net : Net}, net.Trimmable → net.g.WF → l.Nodup → (∀ x ∈ l, net.g.Edge x d) →
    ∃ net', forNet (fun n nr => n.removeEdge nr d) net l = (net', .ok ()) ∧ net'.Trimmable ∧
      net'.m = net.m.onGraph ⟨net.g.nodes, net.g.edges.filter (fun e => decide (e.2 = d → e.1 ∉ l))⟩ ∧ net'.base = net.base
  | [], net, h, hw, _, _ => by
    refine ⟨net, rfl, h, ?_, rfl⟩
    have : net.g.edges.filter (fun e => decide (e.2 = d → e.1 ∉ ([] : List Node))) = net.g.edges := by simp
    rw [this]
    rfl
  | x :: l, net, h, hw, hn, he => by
    obtain ⟨h1, h2⟩ := List.nodup_cons.1 hn
    obtain ⟨n1, k1, k2, k3, k4⟩ := h.removeEdge hw (he x (by simp))
    have hg1 : n1.g = ⟨net.g.nodes, net.g.edges.filter (fun e => decide (e ≠ (x, d)))⟩ := by
      show n1.m.g = _
      rw [k3]; rfl
    obtain ⟨n2, j1, j2, j3, j4⟩ := Trimmable.removeEdges l k2 (by rw [hg1]; exact wf_filter hw _) h2 (fun y hy => by
      rw [hg1]
      show (y, d) ∈ net.g.edges.filter _
      refine List.mem_filter.2 ⟨he y (by simp [hy]), ?_⟩
      simp only [ne_eq, Prod.mk.injEq, and_true, decide_eq_true_eq]
      rintro rfl
      exact h1 hy)
    refine ⟨n2, ?_, j2, ?_, j4.trans k4⟩
    · unfold forNet
      simp only [k1]
      exact j1
    · rw [j3, k3, hg1]
      show net.m.onGraph _ = net.m.onGraph _
      congr 2
      rw [List.filter_filter]
      apply List.filter_congr
      rintro ⟨a, b⟩ _
      simp only [ne_eq, Prod.mk.injEq, List.mem_cons, not_or]
      by_cases hb : b = d
      · by_cases ha : a = x <;> simp [hb, ha]
      · simp [hb]

end Net

namespace Macid

theorem onGraph_role (m : Macid) (g : Graph) (n : Node) : (m.onGraph g).role n = m.role n := rfl

theorem Requisite.congr {m m' : Macid} (hr : ∀ n, m'.role n = m.role n) (he : ∀ u v, m'.g.Edge u v ↔ m.g.Edge u v) (d x : Node) :
    m'.Requisite d x ↔ m.Requisite d x := by
  have e : m'.g.Edge = m.g.Edge := by
    funext u v
    exact propext (he u v)
  have hd : ∀ s t Z, m'.g.DConn s t Z ↔ m.g.DConn s t Z := fun s t Z => Graph.dconn_congr he s t Z
  unfold Requisite Desc
  simp only [hr, e, hd]

theorem Consistent.onFilter {m : Macid} (hc : m.Consistent) (p : Node × Node → Bool) :
    (m.onGraph ⟨m.g.nodes, m.g.edges.filter p⟩).Consistent := by
  exact { hc with wf := Net.wf_filter hc.wf p, nodes := hc.nodes }

end Macid

theorem Graph.mem_trimmed {g H : Graph} {r : List Node} {u v : Node} : (g.trimmed H r).Edge u v ↔ g.Edge u v ∧ (v ∈ r → H.Edge u v) := by
  simp only [Graph.trimmed, Graph.Edge, List.mem_filter, decide_eq_true_eq]

open Net

theorem requisiteLoop_spec {pick : Pick} {setOrd : ListOrder} (hset : ∀ l, (setOrd l).Perm l) {cid : Macid} :
    ∀ (ds : List Node) {rg : Net}, rg.Trimmable → rg.m.Consistent → ds.Nodup →
      (∀ d ∈ ds, ∃ a, rg.m.role d = .decision a ∧ a ∈ rg.m.agentUtilities.keys) →
      (∀ d ∈ ds, ∀ x, rg.g.Edge x d ↔ cid.g.Edge x d) →
      ∃ rg', requisiteLoop pick setOrd cid rg ds = .ok rg' ∧ rg'.Trimmable ∧ rg'.base = rg.base ∧ rg'.m.Consistent ∧
        rg'.m = rg.m.onGraph rg'.g ∧
        rg'.g.nodes = rg.g.nodes ∧ (∀ u v, rg'.g.Edge u v → rg.g.Edge u v) ∧ (∀ u v, rg.g.Edge u v → v ∉ ds → rg'.g.Edge u v) ∧
        ∀ l d r, ds = l ++ d :: r → ∀ x, rg'.g.Edge x d ↔ (rg.m.onGraph (rg.g.trimmed rg'.g l)).Requisite d x
  | [], rg, ht, hc, _, _, _ =>
    ⟨rg, rfl, ht, rfl, hc, rfl, rfl, fun _ _ h => h, fun _ _ h _ => h, by simp⟩
  | d :: ds, rg, ht, hc, hn, hrole, hedge => by
    obtain ⟨hd, hn'⟩ := List.nodup_cons.1 hn
    obtain ⟨a, ha, hk⟩ := hrole d (by simp)
    obtain ⟨req, h1, h2⟩ := requisiteList_spec hc (pick := pick) hset ha hk
    set nr := setOrd ((cid.g.parents d).dedup.filter (fun x => decide (x ∉ req))) with hnr
    have hmem : ∀ x, x ∈ nr ↔ rg.g.Edge x d ∧ ¬ rg.m.Requisite d x := by
      intro x
      rw [hnr, perm_mem hset]
      simp only [List.mem_filter, List.mem_dedup, Graph.mem_parents, decide_eq_true_eq, h2, hedge d (by simp)]
    have hnd : nr.Nodup := by
      rw [hnr, (hset _).nodup_iff]
      exact (List.nodup_dedup _).filter _
    obtain ⟨rg1, k1, k2, k3, k4⟩ := ht.removeEdges nr hc.wf hnd (fun x hx => ((hmem x).1 hx).1)
    have hg1 : rg1.g = ⟨rg.g.nodes, rg.g.edges.filter (fun e => decide (e.2 = d → e.1 ∉ nr))⟩ := by
      show rg1.m.g = _
      rw [k3]; rfl
    have hE1 : ∀ u v, rg1.g.Edge u v ↔ rg.g.Edge u v ∧ (v = d → rg.m.Requisite d u) := by
      intro u v
      rw [hg1]
      show (u, v) ∈ List.filter _ _ ↔ _
      simp only [List.mem_filter, decide_eq_true_eq]
      constructor
      · rintro ⟨q1, q2⟩
        refine ⟨q1, fun e => ?_⟩
        subst e
        by_contra hcon
        exact q2 rfl ((hmem u).2 ⟨q1, hcon⟩)
      · rintro ⟨q1, q2⟩
        exact ⟨q1, fun e hx => ((hmem u).1 hx).2 (q2 e)⟩
    obtain ⟨rg', j1, j2, j3, j4, j5, j6, j7, j8, j9⟩ := requisiteLoop_spec hset (cid := cid) (pick := pick) ds (rg := rg1) k2
      (by rw [k3]; exact hc.onFilter _) hn' (fun e he => by rw [k3]; exact hrole e (by simp [he])) (fun e he x => by
        rw [hE1, hedge e (by simp [he])]
        refine ⟨fun h => h.1, fun h => ⟨h, ?_⟩⟩
        rintro rfl
        exact absurd he hd)
    have hHd : ∀ u, rg'.g.Edge u d ↔ rg.m.Requisite d u := by
      intro u
      constructor
      · intro h
        exact ((hE1 u d).1 (j7 u d h)).2 rfl
      · intro h
        exact j8 u d ((hE1 u d).2 ⟨h.1, fun _ => h⟩) hd
    refine ⟨rg', ?_, j2, j3.trans k4, j4, ?_, ?_, fun u v h => ((hE1 u v).1 (j7 u v h)).1, fun u v h hv => ?_, fun l e r hl x => ?_⟩
    · unfold requisiteLoop
      simp only [h1, ← hnr, k1]
      exact j1
    · rw [j5, k3]
      rfl
    · rw [j6, hg1]
    · simp only [List.mem_cons, not_or] at hv
      exact j8 u v ((hE1 u v).2 ⟨h, fun e => absurd e hv.1⟩) hv.2
    · cases l with
      | nil =>
        simp only [List.nil_append, List.cons.injEq] at hl
        obtain ⟨rfl, rfl⟩ := hl
        rw [hHd]
        exact (Requisite.congr (onGraph_role _ _) (fun u v => by
          show (rg.g.trimmed rg'.g []).Edge u v ↔ _
          rw [Graph.mem_trimmed]; simp [Net.g]) _ _).symm
      | cons e' l =>
        simp only [List.cons_append, List.cons.injEq] at hl
        obtain ⟨rfl, hl⟩ := hl
        rw [j9 l e r hl x]
        refine Requisite.congr (m := rg.m.onGraph _) (m' := rg1.m.onGraph _) (fun n => by rw [onGraph_role, onGraph_role, k3, onGraph_role]) (fun u v => ?_) _ _
        show (rg1.g.trimmed rg'.g l).Edge u v ↔ (rg.g.trimmed rg'.g (d :: l)).Edge u v
        rw [Graph.mem_trimmed, Graph.mem_trimmed, hE1]
        constructor
        · rintro ⟨⟨q1, q2⟩, q3⟩
          refine ⟨q1, fun hv => ?_⟩
          rcases List.mem_cons.1 hv with rfl | hv
          · exact (hHd u).2 (q2 rfl)
          · exact q3 hv
        · rintro ⟨q1, q2⟩
          exact ⟨⟨q1, fun e => by subst e; exact (hHd u).1 (q2 (by simp))⟩, fun hv => q2 (by simp [hv])⟩

namespace Net

/-- a copy of the roles has all agents with both kinds of nodes -/
theorem staffed_of_copy {net : Net} (hm : net.m.Consistent) (hb : net.base = Macid.new ∨ net.base = Macid.newCid)
    (hs : net.Staffed) {m' : Macid} (h9 : Macid.copyWithoutCpds net.base net.m = .ok m') {net' : Net} (h10 : net'.m = m')
    (h6 : net'.base = net.base) : net'.Staffed := by
  obtain ⟨m1, q1, h5, _, _, h4⟩ := C16_copy_exact net.m hm net.base hb hs.both
  rw [h9] at q1
  cases q1
  rw [← h10] at h4 h5
  have hk := Macid.copyWithoutCpds_keys h9
  have hbase : ∀ a, a ∈ net.base.agentUtilities.keys ↔ net.base = Macid.newCid ∧ a = 0 := by
    intro a
    rcases hb with h | h <;> simp [h, Macid.new, Macid.newCid, Dict.keys]
  have hbase' : ∀ a, a ∈ net.base.agentDecisions.keys ↔ net.base = Macid.newCid ∧ a = 0 := by
    intro a
    rcases hb with h | h <;> simp [h, Macid.new, Macid.newCid, Dict.keys]
  have howns : ∀ a, (a ∈ net'.m.agentUtilities.keys ∨ a ∈ net'.m.agentDecisions.keys) →
      ((∃ n, net'.m.role n = .decision a) ∧ ∃ n, net'.m.role n = .utility a) ∨ (net'.base = Macid.newCid ∧ a = 0) := by
    intro a ha
    rw [h6]
    simp only [h4]
    rw [h10] at ha
    rcases ha with ha | ha
    · rcases hk.utilOnly a ha with h | h
      · exact Or.inr ((hbase a).1 h)
      · exact hs.owns a h
    · rcases hk.decOnly a ha with h | h
      · exact Or.inr ((hbase' a).1 h)
      · exact hs.owns a h
  refine ⟨fun a => ⟨fun ha => ?_, fun ha => ?_⟩, fun a ha => howns a (Or.inl ha)⟩
  · rcases howns a (Or.inl ha) with ⟨⟨n, hn⟩, _⟩ | h
    · exact (Macid.role_keys h5).1 hn
    · rw [h10]; exact hk.dec a ((hbase' a).2 (by rw [h6] at h; exact h))
  · rcases howns a (Or.inr ha) with ⟨_, ⟨n, hn⟩⟩ | h
    · exact (Macid.role_keys h5).2 hn
    · rw [h10]; exact hk.util a ((hbase a).2 (by rw [h6] at h; exact h))

theorem Analysable.copy {net : Net} (h : net.Analysable) :
    ∃ net', net.copy = .ok net' ∧ net'.Analysable ∧ net'.base = net.base ∧ net'.g.nodes = net.g.nodes ∧
      (∀ u v, net'.g.Edge u v ↔ net.g.Edge u v) ∧ ∀ n, net'.m.role n = net.m.role n := by
  rcases h.params with hr | hG
  · obtain ⟨m', h1, h2, h3, h4, h5⟩ := C16_copy_exact net.m h.roles net.base h.base h.staffed.both
    refine ⟨⟨m', [], [], [], net.base⟩, ?_, ⟨h2, h.base, staffed_of_copy h.roles h.base h.staffed h1 rfl rfl, Or.inl rfl⟩, rfl, h3, h4, h5⟩
    unfold Net.copy
    rw [h1, hr]
    rfl
  · obtain ⟨net1, h1, h2, h3, h4, h5, h6, h7, h8, m', h9, h10⟩ := copy_spec hG h.roles h.base h.staffed.both
    exact ⟨net1, h1, ⟨h5, by rw [h6]; exact h.base, staffed_of_copy h.roles h.base h.staffed h9 h10 h6, Or.inr h2⟩, h6, h3.nodes, h3.edges, h4⟩

theorem Analysable.trimmable {net : Net} (h : net.Analysable) : net.Trimmable := h.params.imp id Good.stable

/-- `requisite_graph` returns the requisite graph -/
theorem Analysable.requisiteGraph {net : Net} (h : net.Analysable) (pick : Pick) (tpick : List Node → Nat) {setOrd : ListOrder}
    (hset : ∀ l, (setOrd l).Perm l) :
    ∃ rg order, Verif.requisiteGraph pick tpick setOrd net = .ok rg ∧ net.m.getValidOrder tpick none = .ok order ∧
      net.m.IsOrder order ∧ net.m.IsRequisiteGraph order rg.g ∧
      rg.m.Consistent ∧ (∀ n, rg.m.role n = net.m.role n) := by
  obtain ⟨c, c1, c2, c3, c4, c5, c6⟩ := h.copy
  obtain ⟨order, o1, o2, o3, o4⟩ := C14_get_valid_order_default net.m h.roles.wf tpick
  have hO : net.m.IsOrder order := by
    refine ⟨o2, fun d => (o3 d).trans ⟨fun hd => ?_, fun hd => ?_⟩, o4⟩
    · obtain ⟨a, ha⟩ := Dict.mem_keys.1 hd.1
      exact ⟨a, role_decision.2 ha⟩
    · obtain ⟨a, ha⟩ := hd
      have : d ∈ net.m.decisions := Dict.mem_keys.2 ⟨a, role_decision.1 ha⟩
      exact ⟨this, h.roles.nodes d (Or.inl this)⟩
  obtain ⟨rg, r1, r2, r3, r4, r5, r6, r7, r8, r9⟩ := requisiteLoop_spec (pick := pick) hset (cid := net.m) order.reverse (rg := c)
    c2.trimmable c2.roles (by simpa using o2) (fun d hd => by
      obtain ⟨a, ha⟩ := (hO.all d).1 (by simpa using hd)
      refine ⟨a, by rw [c6]; exact ha, (c2.staffed.both a).2 ?_⟩
      exact (Macid.role_keys c2.roles).1 ((c6 d).trans ha)) (fun d _ x => c5 x d)
  refine ⟨rg, order, ?_, o1, hO, ⟨r6.trans c4, fun u v he => (c5 u v).1 (r7 u v he), fun u v he hv =>
    r8 u v ((c5 u v).2 he) (by simpa using hv), fun l d r hl x => ?_⟩, r4, fun n => by rw [r5]; exact c6 n⟩
  · unfold Verif.requisiteGraph
    simp only [c1, o1]
    exact r1
  · rw [r9 r.reverse d l.reverse (by rw [hl]; simp) x]
    refine Requisite.congr (m := net.m.onGraph (net.m.g.trimmed rg.g r)) (m' := c.m.onGraph (c.g.trimmed rg.g r.reverse)) c6 (fun u v => ?_) _ _
    show (c.g.trimmed rg.g r.reverse).Edge u v ↔ (net.g.trimmed rg.g r).Edge u v
    rw [Graph.mem_trimmed, Graph.mem_trimmed, c5]
    simp

end Net
end Verif

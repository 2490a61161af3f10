import Verif.Lemmas.Perm
import Verif.Props.Net

/-!
# Copies
-/

namespace Verif
open Relation
namespace Net

/-! ### keys -/

theorem setLoop_pred {s : Net → Node → Rel → Net × Py Unit} {Q : Net → Prop}
    (hs : ∀ net c r, net.rels.get? c = some r → Q net → Q (s net c r).1) {cs : List Node} {net : Net} (h : Q net) :
    Q (setLoop s net cs).1 := by
  induction cs generalizing net with
  | nil => exact h
  | cons c cs ih =>
    unfold setLoop
    cases hr : net.rels.get? c with
    | none => simp only; exact ih h
    | some r =>
      simp only
      have := hs net c r hr h
      generalize hst : s net c r = x at this
      obtain ⟨net', y⟩ := x
      cases y with
      | error e => exact this
      | ok u => exact ih this

theorem nodup_stage {net : Net} {v : Node} {r : Rel} (h : net.rels.keys.Nodup) :
    (Dict.keys (net.rels.erase v ++ [(v, r)])).Nodup := by
  have h1 : (Dict.keys (net.rels.erase v)).Nodup := Dict.nodup_keys_erase h
  have h2 : v ∉ Dict.keys (net.rels.erase v) := by
    intro hm
    obtain ⟨x, hx⟩ := Dict.mem_keys.1 hm
    rw [Dict.get?_erase] at hx
    simp at hx
  simp only [Dict.keys, List.map_append, List.map_cons, List.map_nil]
  rw [List.nodup_append]
  refine ⟨h1, by simp, ?_⟩
  intro a ha b hb e
  simp only [List.mem_cons, List.not_mem_nil, or_false] at hb
  subst hb
  subst e
  exact h2 ha

theorem setItem_keys_nodup (n : Nat) (net : Net) (v : Node) (r : Rel) (h : net.rels.keys.Nodup) :
    (setItem n net v r).1.rels.keys.Nodup := by
  induction n generalizing net v r with
  | zero => exact h
  | succ n ih =>
    rcases setItem_cases n net v r with ⟨_, h2⟩ | ⟨e, _, _, h2⟩ | ⟨c, _, ⟨_, h2⟩ | ⟨_, _, h2⟩ | ⟨_, _, _, _, h2⟩ | ⟨_, _, _, h2⟩⟩
    all_goals rw [h2]
    · exact nodup_stage h
    · exact nodup_stage h
    · exact nodup_stage h
    · exact nodup_stage h
    · exact nodup_stage h
    · exact setLoop_pred (Q := fun net => net.rels.keys.Nodup) (fun net c r _ h => ih net c r h)
        (show (put net v r c).rels.keys.Nodup from nodup_stage h)

theorem setItem_ok_node {n : Nat} {net net' : Net} {v : Node} {r : Rel}
    (h : setItem n net v r = (net', .ok ())) : v ∈ net.g.nodes := by
  cases n with
  | zero => simp [setItem] at h
  | succ n =>
    rcases setItem_cases n net v r with ⟨h1, _⟩ | ⟨e, _, _, h2⟩ | ⟨c, hc, ⟨_, h2⟩ | ⟨_, _, h2⟩ | ⟨h3, h4, _, _, h2⟩ | ⟨h3, h4, _, h2⟩⟩
    · cases r with
      | tab c => simp [toCpd] at h1
      | func f =>
        simp only [toCpd] at h1
        split at h1
        · assumption
        · simp at h1
      | dist f =>
        simp only [toCpd] at h1
        split at h1
        · assumption
        · simp at h1
      | seq f =>
        simp only [toCpd] at h1
        split at h1
        · assumption
        · simp at h1
    · rw [h2] at h; simp at h
    · rw [h2] at h; simp at h
    · rw [h2] at h; simp at h
    · exact h4 ▸ h3 c.var (by simp)
    · exact h4 ▸ h3 c.var (by simp)

theorem runs_keys {net net' : Net} {ops : List Op} (h : Runs net ops net') :
    net.rels.keys.Nodup → (∀ v ∈ net.rels.keys, v ∈ net.g.nodes) →
    net'.rels.keys.Nodup ∧ ∀ v ∈ net'.rels.keys, v ∈ net'.g.nodes := by
  induction h with
  | nil => exact fun h1 h2 => ⟨h1, h2⟩
  | @cons net net1 net2 op ops h1 _ ih =>
    intro k1 k2
    cases op with
    | set v r =>
      have e1 : net.set v r = (net1, .ok ()) := h1
      have hr := net.set_rels v r
      have hm := (net.set_m v r).1
      have hnd := setItem_keys_nodup (net.g.nodes.length + 1) net v r k1
      change (net.set v r).1.rels.keys.Nodup at hnd
      rw [e1] at hr hm hnd
      have hg : net1.g = net.g := congrArg Macid.g hm
      refine ih hnd (fun w hw => ?_)
      rw [hg]
      obtain ⟨x, hx⟩ := Dict.mem_keys.1 hw
      rw [hr] at hx
      split at hx
      · rename_i e; rw [e]; exact setItem_ok_node e1
      · exact k2 w (Dict.mem_keys.2 ⟨x, hx⟩)
    | del v =>
      simp only [run, del] at h1
      split at h1
      · simp only [Prod.mk.injEq, and_true] at h1
        subst h1
        refine ih (Dict.nodup_keys_erase k1) (fun w hw => ?_)
        obtain ⟨x, hx⟩ := Dict.mem_keys.1 hw
        change Dict.get? (Dict.erase net.rels v) w = some x at hx
        rw [Dict.get?_erase] at hx
        split at hx
        · simp at hx
        · exact k2 w (Dict.mem_keys.2 ⟨x, hx⟩)
      · simp at h1

/-- Every history of assignments of functions, distributions and plain tables that assigns every
node ends in a sound state. -/
theorem good_of_runs {net net' : Net} {ops : List Op} (hw : net.g.WF) (hf : net.Fresh)
    (ho : ∀ op ∈ ops, op.Honest) (h : Runs net ops net')
    (hk : ∀ v ∈ net.g.nodes, v ∈ net'.rels.keys)
    (ht : ∀ v c, net'.rels.get? v = some (.tab c) → c.kind = .tabular ∧ c.Fits net'.g net'.domain v) : Good net' := by
  obtain ⟨hg, hi, hh⟩ := runs_inv h hw (.ofFresh hf) hf.honest ho
  obtain ⟨k1, k2⟩ := runs_keys h (by rw [hf.1]; simp [Dict.keys]) (by rw [hf.1]; simp [Dict.keys])
  have hcomp : net'.Complete := hi.complete (hg ▸ hw) (hg ▸ hk)
  have hw' : net'.g.WF := hg ▸ hw
  have hne : ∀ v, ∀ c, net'.cpds.get? v = some c → c.domain ≠ [] := by
    intro v
    refine dag_induction hw' (P := fun v => ∀ c, net'.cpds.get? v = some c → c.domain ≠ []) ?_ v
    intro v ih c hc
    obtain ⟨_, r, h2, h3⟩ := hi.reflects v c hc
    have hp : ∀ p ∈ net'.g.parents v, ∃ d, net'.domain.get? p = some d ∧ d ≠ [] := by
      intro p hp
      have he := Graph.mem_parents.1 hp
      obtain ⟨pc, e1, e2⟩ := hcomp p (hw'.edgeNodes p v he).1
      exact ⟨pc.domain, e2, ih p he pc e1⟩
    cases r with
    | tab c0 =>
      simp only [computed, Except.ok.injEq] at h3
      subst h3
      exact (hh v _ h2).nonempty
    | func f => unfold computed at h3; exact mkCpd_nonempty h3 hp
    | dist f => unfold computed at h3; exact mkCpd_nonempty h3 hp
    | seq f => unfold computed at h3; exact mkCpd_nonempty h3 hp
  refine ⟨hw', k1, k2, hi.reflects, hcomp, fun v c hc => ?_, fun v c hc => ?_, fun v c hc hne => ?_⟩
  · obtain ⟨_, r, h2, h3⟩ := hi.reflects v c hc
    cases r with
    | tab c0 =>
      simp only [computed, Except.ok.injEq] at h3
      subst h3
      exact (ht v _ h2).2
    | func f => unfold computed at h3; exact mkCpd_fits h3
    | dist f => unfold computed at h3; exact mkCpd_fits h3
    | seq f => unfold computed at h3; exact mkCpd_fits h3
  · obtain ⟨_, r, h2, h3⟩ := hi.reflects v c hc
    have hpn := Graph.nodup_parents hw'.edgesNodup v
    cases r with
    | tab c0 =>
      simp only [computed, Except.ok.injEq] at h3
      subst h3
      exact hh v _ h2
    | func f => unfold computed at h3; exact mkCpd_wf h3 hpn (hne v c hc)
    | dist f => unfold computed at h3; exact mkCpd_wf h3 hpn (hne v c hc)
    | seq f => unfold computed at h3; exact mkCpd_wf h3 hpn (hne v c hc)
  · exact absurd (ht v c hc).1 hne

/-! ### probabilities only look at domains of the evidence -/

theorem prob_congr {c : Cpd} {dom dom' : Dict Node (List Outcome)} (h : ∀ p ∈ c.evidence, dom'.get? p = dom.get? p)
    (vals : List Outcome) (x : Outcome) : c.prob dom' vals x = c.prob dom vals x := by
  unfold Cpd.prob
  congr 1
  apply List.map_congr_left
  intro p hp
  rw [h p hp]

theorem dom_eq {net : Net} {v : Node} {d : List Outcome} (h : net.domain.get? v = some d) : net.dom v = d := by
  simp [dom, h]

theorem InDom.inDoms {net : Net} (hc : net.Complete) {a : Assign} (ha : net.InDom a) {ps : List Node}
    (hp : ∀ p ∈ ps, p ∈ net.g.nodes) : InDoms net.domain ps a := by
  intro p hpm
  obtain ⟨c, _, h2⟩ := hc p (hp p hpm)
  exact ⟨c.domain, h2, by rw [← dom_eq h2]; exact ha p (hp p hpm)⟩

theorem parents_perm {g g' : Graph} (hw : g.WF) (hw' : g'.WF) (he : ∀ u v, g'.Edge u v ↔ g.Edge u v) (v : Node) :
    (g'.parents v).Perm (g.parents v) :=
  (List.perm_ext_iff_of_nodup (Graph.nodup_parents hw'.edgesNodup v) (Graph.nodup_parents hw.edgesNodup v)).2 (fun p => by
    rw [Graph.mem_parents, Graph.mem_parents, he])

/-- computing a relationship in a graph with the same edges gives the same CPD up to the order of
the evidence -/
theorem computed_perm {net : Net} (hG : Good net) {g' : Graph} (hw' : g'.WF)
    (he : ∀ u v, g'.Edge u v ↔ net.g.Edge u v) {v : Node} {r : Rel} {c : Cpd}
    (h : computed net.g net.domain v r = .ok c) :
    ∃ c', computed g' net.domain v r = .ok c' ∧ net.SameCpd c c' ∧ c'.var = c.var ∧ c'.kind = c.kind ∧
      (c.WellFormed → c'.WellFormed) ∧ (c.Fits net.g net.domain v → c'.Fits g' net.domain v) := by
  have hpn : ∀ p ∈ net.g.parents v, p ∈ net.g.nodes := fun p hp =>
    (hG.wf.edgeNodes p v (Graph.mem_parents.1 hp)).1
  have key : ∀ {kind f force}, mkCpd kind v f force (net.g.parents v) net.domain (cardOf net.domain) = .ok c →
      ∃ c', mkCpd kind v f force (g'.parents v) net.domain (cardOf net.domain) = .ok c' ∧
        net.SameCpd c c' ∧ c'.var = c.var ∧ c'.kind = c.kind ∧
        (c.WellFormed → c'.WellFormed) ∧ (c.Fits net.g net.domain v → c'.Fits g' net.domain v) := by
    intro kind f force hm
    obtain ⟨c', h1, h2, h3⟩ := mkCpd_perm (Graph.nodup_parents hG.wf.edgesNodup v) (parents_perm hG.wf hw' he v) hm
    obtain ⟨f1, f2, f3, _⟩ := mkCpd_fields h1
    obtain ⟨g1, g2, g3, _⟩ := mkCpd_fields hm
    refine ⟨c', h1, ⟨h2, fun a ha x => h3 a (ha.inDoms hG.complete hpn) x⟩, by rw [f1, g1], by rw [f3, g3],
      fun hwf => mkCpd_wf h1 (Graph.nodup_parents hw'.edgesNodup v) (h2 ▸ hwf.nonempty), fun _ => mkCpd_fits h1⟩
  cases r with
  | tab c0 =>
    simp only [computed, Except.ok.injEq] at h
    subst h
    exact ⟨c0, rfl, ⟨rfl, fun _ _ _ => rfl⟩, rfl, rfl, fun h => h,
      fun h => ⟨h.var, fun p => by rw [he]; exact h.parents p, h.cards, h.sums⟩⟩
  | func f => unfold computed at h ⊢; exact key h
  | dist f => unfold computed at h ⊢; exact key h
  | seq f => unfold computed at h ⊢; exact key h

theorem card_eq_cardOf {net : Net} (hG : Good net) {p : Node} (hp : p ∈ net.g.nodes) :
    net.card p = cardOf net.domain p := by
  obtain ⟨c, h1, h2⟩ := hG.complete p hp
  simp [card, getCpd, hp, h1, cardOf, h2]

/-- copying a relationship -/
theorem copyRel_spec {net : Net} (hG : Good net) {v : Node} {r : Rel} {c : Cpd}
    (hr : net.rels.get? v = some r) (hc : net.cpds.get? v = some c) :
    ∃ r' c', net.copyRel v r = .ok r' ∧ computed net.g net.domain v r' = .ok c' ∧ net.SameCpd c c' ∧
      c'.Fits net.g net.domain v ∧ c'.WellFormed ∧ (c'.kind = .decision ↔ c.kind = .decision) ∧
      (∀ c1, r' = .tab c1 → c1.kind ≠ .tabular →
        mkCpd c1.kind c1.var c1.func c1.force (net.g.parents v) net.domain (cardOf net.domain) = .ok c1) := by
  obtain ⟨_, r1, hr1, hcomp⟩ := hG.reflects v c hc
  rw [hr] at hr1
  simp only [Option.some.injEq] at hr1
  subst hr1
  have hfit := hG.fits v c hc
  have hpn : ∀ p ∈ net.g.parents v, p ∈ net.g.nodes := fun p hp =>
    (hG.wf.edgeNodes p v (Graph.mem_parents.1 hp)).1
  have triv : ∀ r0, r0 = r → (∀ c1, r0 ≠ .tab c1) → ∃ r' c', Except.ok r0 = (Except.ok r' : Py Rel) ∧
      computed net.g net.domain v r' = .ok c' ∧ net.SameCpd c c' ∧
      c'.Fits net.g net.domain v ∧ c'.WellFormed ∧ (c'.kind = .decision ↔ c.kind = .decision) ∧
      (∀ c1, r' = .tab c1 → c1.kind ≠ .tabular →
        mkCpd c1.kind c1.var c1.func c1.force (net.g.parents v) net.domain (cardOf net.domain) = .ok c1) := by
    intro r0 e hnt
    subst e
    exact ⟨r0, c, rfl, hcomp, ⟨rfl, fun _ _ _ => rfl⟩, hfit, hG.cpdOk v _ hc, Iff.rfl, fun c1 h => absurd h (hnt c1)⟩
  cases r with
  | func f => exact triv _ rfl (by simp)
  | dist f => exact triv _ rfl (by simp)
  | seq f => exact triv _ rfl (by simp)
  | tab c0 =>
    simp only [computed, Except.ok.injEq] at hcomp
    subst hcomp
    by_cases hk : c0.kind = .tabular
    · refine ⟨.tab c0, c0, by simp [copyRel, hk], rfl, ⟨rfl, fun _ _ _ => rfl⟩, hfit, hG.cpdOk v _ hc, Iff.rfl, fun c1 h hne => ?_⟩
      simp only [Rel.tab.injEq] at h
      subst h
      exact absurd hk hne
    · obtain ⟨c', h1, h2⟩ := hG.tabs v c0 hr hk
      have hcardeq : mkCpd c0.kind c0.var c0.func c0.force (net.g.parents v) net.domain net.card = .ok c' := by
        rw [← h1]
        exact mkCpd_congr (fun _ _ => rfl) (fun p hp => card_eq_cardOf hG (hpn p hp))
      obtain ⟨f1, f2, f3, f4, f5, f6⟩ := mkCpd_fields h1
      have gen : ∀ k, k ≠ .tabular → (k = .decision ↔ c0.kind = .decision) →
          net.copyRel v (.tab c0) = .ok (.tab { c' with kind := k }) →
          ∃ r' c'', net.copyRel v (.tab c0) = .ok r' ∧ computed net.g net.domain v r' = .ok c'' ∧ net.SameCpd c0 c'' ∧
          c''.Fits net.g net.domain v ∧ c''.WellFormed ∧ (c''.kind = .decision ↔ c0.kind = .decision) ∧
          (∀ c1, r' = .tab c1 → c1.kind ≠ .tabular →
            mkCpd c1.kind c1.var c1.func c1.force (net.g.parents v) net.domain (cardOf net.domain) = .ok c1) := by
        intro k hk1 hk2 hcr
        refine ⟨_, { c' with kind := k }, hcr, rfl, ⟨h2.1, fun a ha x => h2.2 a ha x⟩, ?_,
          mkCpd_wf (mkCpd_kind (kind' := k) h1) (Graph.nodup_parents hG.wf.edgesNodup v)
            (by simp only; rw [h2.1]; exact (hG.cpdOk v _ hc).nonempty), hk2, ?_⟩
        · have := mkCpd_kind (kind' := k) h1
          rw [hfit.var] at this
          exact mkCpd_fits this
        · intro c1 h _
          simp only [Rel.tab.injEq] at h
          subst h
          have := mkCpd_kind (kind' := k) h1
          simpa only [f1, f4, f5] using this
      by_cases hkd : c0.kind = .decision
      · refine gen .decision (by simp) (by simp [hkd]) ?_
        have := mkCpd_kind (kind' := .decision) hcardeq
        simp only [copyRel, hkd, this]
      · refine gen .stochastic (by simp) (by simp [hkd]) ?_
        have := mkCpd_kind (kind' := .stochastic) hcardeq
        cases hkk : c0.kind with
        | tabular => exact absurd hkk hk
        | decision => exact absurd hkk hkd
        | stochastic => simp only [copyRel, hkk, this]
        | constant => simp only [copyRel, hkk, this]

theorem copyLoop_eq {net : Net} {ρ : Node × Rel → Rel} {l : List (Node × Rel)} {acc : Net}
    (h : ∀ p ∈ l, net.copyRel p.1 p.2 = .ok (ρ p)) {acc' : Net}
    (ha : acc.addCpds (l.map (fun p => (p.1, ρ p))) = (acc', .ok ())) : copyLoop net acc l = .ok acc' := by
  induction l generalizing acc with
  | nil =>
    simp only [List.map_nil, addCpds, Prod.mk.injEq, and_true] at ha
    subst ha
    rfl
  | cons p l ih =>
    obtain ⟨v, r⟩ := p
    unfold copyLoop
    have h1 := h (v, r) (by simp)
    simp only at h1
    simp only [h1]
    simp only [List.map_cons, addCpds] at ha
    generalize hs : acc.set v (ρ (v, r)) = x at ha
    obtain ⟨n1, y⟩ := x
    cases y with
    | error e => simp at ha
    | ok u =>
      simp only at ha ⊢
      exact ih (fun p hp => h p (by simp [hp])) ha

/-- Re-assigning relationships `rel'` that mean the same as those of a sound network `net`, in a
fresh network over the same graph, yields an equivalent sound network. -/
theorem rebuild {net acc : Net} (hG : Good net) (hf : acc.Fresh) (hn : acc.g.nodes = net.g.nodes)
    (hw' : acc.g.WF) (he : ∀ u v, acc.g.Edge u v ↔ net.g.Edge u v) {l : List (Node × Rel)}
    (hnd : (l.map (·.1)).Nodup) (hall : ∀ v, v ∈ l.map (·.1) ↔ v ∈ net.g.nodes)
    (hl : ∀ v r' c, Dict.get? l v = some r' → net.cpds.get? v = some c →
      ∃ c', computed net.g net.domain v r' = .ok c' ∧ net.SameCpd c c' ∧
      c'.Fits net.g net.domain v ∧ c'.WellFormed ∧ (c'.kind = .decision ↔ c.kind = .decision) ∧
      (∀ c1, r' = .tab c1 → c1.kind ≠ .tabular → ∃ c2,
        mkCpd c1.kind c1.var c1.func c1.force (net.g.parents v) net.domain (cardOf net.domain) = .ok c2 ∧
          net.SameCpd c1 c2 ∧ ∀ p ∈ c1.evidence, net.g.Edge p v)) :
    ∃ net', acc.addCpds l = (net', .ok ()) ∧ Good net' ∧ Equiv net net' ∧ net'.m = acc.m ∧ net'.base = acc.base ∧
      (∀ v, net'.domain.get? v = if v ∈ net.g.nodes then net.domain.get? v else none) ∧
      ∀ v, net'.rels.get? v = Dict.get? l v := by
  classical
  have : Nonempty Cpd := ⟨⟨"", [], [], [], [], .tabular, fun _ => .error .key, none⟩⟩
  -- the CPDs of the copy
  have hex : ∀ v ∈ net.g.nodes, ∃ c c' : Cpd, net.cpds.get? v = some c ∧
      (∃ r', Dict.get? l v = some r' ∧ computed acc.g net.domain v r' = .ok c') ∧ net.SameCpd c c' ∧
      c'.Fits acc.g net.domain v ∧ c'.WellFormed ∧ (c'.kind = .decision ↔ c.kind = .decision) := by
    intro v hv
    obtain ⟨c, h1, _⟩ := hG.complete v hv
    obtain ⟨r', hr'⟩ := (Dict.mem_keys (d := l)).1 ((hall v).2 hv)
    obtain ⟨c', k1, k2, k4, kw, k5, _⟩ := hl v r' c hr' h1
    obtain ⟨c'', e1, e2, e3, e4, ew, e5⟩ := computed_perm hG hw' he k1
    refine ⟨c, c'', h1, ⟨r', hr', e1⟩, ⟨e2.1.trans k2.1, fun a ha x => (e2.2 a ha x).trans (k2.2 a ha x)⟩,
      e5 k4, ew kw, by rw [e4, k5]⟩
  choose! C C' hC1 hC2 hC3 hC5 hCw hC6 using hex
  let sol : Node → Option Cpd := fun v => if v ∈ net.g.nodes then some (C' v) else none
  have hsol : ∀ v c, sol v = some c → v ∈ net.g.nodes ∧ c = C' v := by
    intro v c h
    simp only [sol] at h
    split at h
    · rename_i hv; exact ⟨hv, by simpa using h.symm⟩
    · simp at h
  -- a table of domains restricted to the nodes
  let D : Dict Node (List Outcome) := net.g.nodes.map (fun v => (v, (C' v).domain))
  have hD : ∀ v, D.get? v = (sol v).map Cpd.domain := by
    intro v
    simp only [D, sol]
    rw [get?_map_pair (h := fun v => (C' v).domain)]
    split <;> rfl
  have hDn : ∀ v ∈ net.g.nodes, D.get? v = net.domain.get? v := by
    intro v hv
    rw [hD]
    simp only [sol, hv, if_true, Option.map_some]
    rw [(hC3 v hv).1, (hG.reflects v (C v) (hC1 v hv)).1]
  have hS : Sol acc.g (fun v => Dict.get? l v) sol D := by
    refine ⟨hD, fun v c hc => ?_, fun v c hc => ?_, fun v r hr hrd => ?_, fun v r hr => ?_⟩
    · obtain ⟨hv, rfl⟩ := hsol v c hc
      obtain ⟨r', h1, h2⟩ := hC2 v hv
      refine ⟨r', h1, ?_⟩
      rw [← h2]
      exact computed_congr (fun p hp => hDn p (by rw [← hn]; exact (hw'.edgeNodes p v hp).1))
    · obtain ⟨hv, rfl⟩ := hsol v c hc
      refine ⟨(hC5 v hv).var, fun x hx => ?_⟩
      rcases List.mem_cons.1 hx with rfl | hx
      · rw [hn, (hC5 v hv).var]; exact hv
      · exact (hw'.edgeNodes x v (((hC5 v hv).parents x).1 hx)).1
    · have hv : v ∈ net.g.nodes := (hall v).1 ((Dict.mem_keys (d := l)).2 ⟨r, hr⟩)
      exact ⟨C' v, by simp [sol, hv]⟩
    · rw [hn]
      exact (hall v).1 ((Dict.mem_keys (d := l)).2 ⟨r, hr⟩)
  have hR0 : Run acc.g (fun v => Dict.get? l v) sol acc := by
    obtain ⟨f1, f2, f3⟩ := hf
    refine ⟨rfl, ?_, ?_, ?_⟩ <;> intro v <;> simp [f1, f2, f3, Dict.get?]
  obtain ⟨net', k1, k2, k3⟩ := addCpds_run hw' hS (l := l) hR0
    (by intro v r hr; rw [hf.1] at hr; simp [Dict.get?] at hr)
    (fun p hp' => Dict.get?_of_mem hnd hp')
  have hrel' : ∀ v, net'.rels.get? v = Dict.get? l v := by
    intro v
    rw [addCpds_rels hnd k1 v, hf.1]
    cases Dict.get? l v <;> rfl
  have hfin := fun v => k2.final hw' hS k3 hrel' v
  have hgm : net'.m = acc.m ∧ net'.base = acc.base := by
    clear hfin hrel' k3 k2 hR0 hS hDn hD hsol hC6 hCw hC5 hC3 hC2 hC1 hl hall hnd hf hn hw' he
    induction l generalizing acc with
    | nil =>
      simp only [addCpds, Prod.mk.injEq, and_true] at k1
      subst k1
      exact ⟨rfl, rfl⟩
    | cons p l ih =>
      obtain ⟨v, r⟩ := p
      unfold addCpds at k1
      have hm := acc.set_m v r
      generalize acc.set v r = x at k1 hm
      obtain ⟨n1, y⟩ := x
      cases y with
      | error e => simp at k1
      | ok u =>
        obtain ⟨i1, i2⟩ := ih k1
        exact ⟨i1.trans hm.1, i2.trans hm.2⟩
  have hg' : net'.g = acc.g := congrArg Macid.g hgm.1
  have hdom' : ∀ v, net'.domain.get? v = D.get? v := fun v => (hfin v).2
  have hdomn : ∀ v ∈ net.g.nodes, net'.domain.get? v = net.domain.get? v := fun v hv => by
    rw [hdom', hDn v hv]
  have hcpd' : ∀ v ∈ net.g.nodes, net'.cpds.get? v = some (C' v) := fun v hv => by
    rw [(hfin v).1]; simp [sol, hv]
  have hInDom : ∀ a, net'.InDom a ↔ net.InDom a := by
    intro a
    unfold InDom
    rw [hg', hn]
    refine forall₂_congr (fun v hv => ?_)
    simp only [dom, hdomn v hv]
  refine ⟨net', k1, ⟨hg' ▸ hw', ?_, ?_, ?_, ?_, ?_, ?_, ?_⟩, ⟨by rw [hg', hn], fun u v => by rw [hg', he], hdomn, ?_, ?_⟩, hgm.1, hgm.2, ?_, hrel'⟩
  · exact (runs_keys (addCpds_runs k1) (by rw [hf.1]; simp [Dict.keys]) (by rw [hf.1]; simp [Dict.keys])).1
  · exact (runs_keys (addCpds_runs k1) (by rw [hf.1]; simp [Dict.keys]) (by rw [hf.1]; simp [Dict.keys])).2
  · intro v c hc
    rw [(hfin v).1] at hc
    have := hS.cpd v c hc
    obtain ⟨r, h1, h2⟩ := this
    refine ⟨?_, r, by rw [hrel', h1], ?_⟩
    · rw [hdom', hD, hc]; rfl
    · rw [hg', ← h2]
      exact computed_congr (fun p _ => hdom' p)
  · intro v hv
    rw [hg', hn] at hv
    refine ⟨C' v, hcpd' v hv, ?_⟩
    rw [hdom', hD]
    simp [sol, hv]
  · intro v c hc
    rw [(hfin v).1] at hc
    obtain ⟨hv, rfl⟩ := hsol v c hc
    have hf5 := hC5 v hv
    rw [hg']
    refine ⟨hf5.var, hf5.parents, ?_, hf5.sums⟩
    rw [hf5.cards]
    apply List.map_congr_left
    intro p hp
    rw [hdomn p (by rw [← hn]; exact (hw'.edgeNodes p v ((hf5.parents p).1 hp)).1)]
  · intro v c hc
    rw [(hfin v).1] at hc
    obtain ⟨hv, rfl⟩ := hsol v c hc
    exact hCw v hv
  · intro v c1 hc1 hne
    rw [hrel'] at hc1
    have hv : v ∈ net.g.nodes := (hall v).1 ((Dict.mem_keys (d := l)).2 ⟨_, hc1⟩)
    obtain ⟨c, h1, _⟩ := hG.complete v hv
    obtain ⟨_, _, _, _, _, _, k⟩ := hl v _ c hc1 h1
    obtain ⟨c0, hmk, hs0, hev1⟩ := k c1 rfl hne
    obtain ⟨c2, e1, e2, e3⟩ := mkCpd_perm (Graph.nodup_parents hG.wf.edgesNodup v) (parents_perm hG.wf hw' he v) hmk
    have hpn : ∀ p ∈ acc.g.parents v, p ∈ net.g.nodes := fun p hp => by
      rw [← hn]; exact (hw'.edgeNodes p v (Graph.mem_parents.1 hp)).1
    have hev2 : c2.evidence = acc.g.parents v := (mkCpd_fields e1).2.1
    refine ⟨c2, ?_, e2.trans hs0.1, fun a ha x => ?_⟩
    · rw [hg', ← e1]
      refine mkCpd_congr (fun p hp => hdomn p (hpn p hp)) (fun p hp => ?_)
      simp [cardOf, hdomn p (hpn p hp)]
    · have ha' := (hInDom a).1 ha
      rw [prob_congr (c := c2) (fun p hp => hdomn p (hpn p (hev2 ▸ hp))),
        prob_congr (c := c1) (fun p hp => hdomn p (hG.wf.edgeNodes p v (hev1 p hp)).1)]
      refine (e3 a (ha'.inDoms hG.complete (fun p hp => ?_)) x).trans (hs0.2 a ha' x)
      exact (hG.wf.edgeNodes p v (Graph.mem_parents.1 hp)).1
  · intro v hv
    simp only [Net.undecided, hcpd' v hv, hC1 v hv]
    exact decide_eq_decide.2 (hC6 v hv)
  · intro v hv a ha
    simp only [kernel, hcpd' v hv, hC1 v hv]
    rw [prob_congr (c := C' v) (fun p hp => hdomn p (by rw [← hn]; exact (hw'.edgeNodes p v (((hC5 v hv).parents p).1 hp)).1)), (hC3 v hv).2 a ha]
  · intro v
    rw [hdom']
    split
    · rename_i hv; exact hDn v hv
    · rename_i hv
      rw [hD]
      simp [sol, hv]

end Net
end Verif

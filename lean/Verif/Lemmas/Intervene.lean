import Verif.Lemmas.Copy

/-!
# Interventions
-/

namespace Verif
open Relation
namespace Net

theorem wf_sub {g g' : Graph} (hw : g.WF) (h1 : g'.nodes.Nodup) (h2 : g'.edges.Nodup)
    (h3 : ∀ u w, g'.Edge u w → u ∈ g'.nodes ∧ w ∈ g'.nodes) (h4 : ∀ u w, g'.Edge u w → g.Edge u w) : g'.WF :=
  ⟨h1, h2, h3, fun v hv => hw.acyclic v (TransGen.mono (fun a b h => h4 a b h) _ _ hv)⟩

theorem foldl_set_get? (l : List Outcome) (d : Dict Outcome (Option Rat)) (o : Outcome) :
    Dict.get? (l.foldl (fun acc o => Dict.set acc o (some 0)) d) o =
      if o ∈ l then some (some 0) else d.get? o := by
  induction l generalizing d with
  | nil => simp
  | cons x l ih =>
    simp only [List.foldl_cons, ih, Dict.get?_set, List.mem_cons]
    by_cases h : o ∈ l
    · simp [h]
    · by_cases h2 : o = x <;> simp [h, h2]

theorem foldl_set_keys (l : List Outcome) (d : Dict Outcome (Option Rat)) (hn : d.keys.Nodup) :
    (Dict.keys (l.foldl (fun acc o => Dict.set acc o (some 0)) d)).Nodup := by
  induction l generalizing d with
  | nil => exact hn
  | cons x l ih => exact ih _ (Dict.nodup_keys_set hn)

/-- the distribution an intervention assigns -/
def intDist (d : List Outcome) (v : Outcome) : Dict Outcome (Option Rat) :=
  Dict.set (d.foldl (fun acc o => Dict.set acc o (some 0)) ([] : Dict Outcome (Option Rat))) v (some 1)

theorem intDist_get? (d : List Outcome) (v o : Outcome) :
    (intDist d v).get? o = if o = v then some (some 1) else if o ∈ d then some (some 0) else none := by
  unfold intDist
  rw [Dict.get?_set, foldl_set_get?]
  simp [Dict.get?]

theorem intDist_keys (d : List Outcome) (v : Outcome) : (intDist d v).keys.Nodup :=
  Dict.nodup_keys_set (foldl_set_keys d [] (by simp [Dict.keys]))

theorem interveneOne_eq {net : Net} {x : Node} {v : Outcome} {d : List Outcome} (h1 : x ∈ net.rels.keys)
    (h2 : x ∈ net.g.nodes) (h3 : net.domain.get? x = some d) :
    net.interveneOne x v = Net.set { net with
      m := { net.m with g := { net.g with edges := net.g.edges.filter (fun e => decide (e.2 ≠ x)) } },
      rels := net.rels.erase x, cpds := net.cpds.erase x } x (.dist (intDist d v)) := by
  unfold interveneOne
  rw [if_neg (by simpa using h1)]
  have h2' : x ∈ (net.delKey x).g.nodes := h2
  have h3' : ((net.delKey x).withGraph { (net.delKey x).g with
      edges := (net.delKey x).g.edges.filter (fun e => decide (e.2 ≠ x)) }).domain.get? x = some d := h3
  simp only [h2', not_true_eq_false, if_false, h3']
  rfl

/-- the CPD an intervention builds -/
theorem mkCpd_intDist {x : Node} {d : List Outcome} {v : Outcome} (hv : v ∈ d)
    (dom : Dict Node (List Outcome)) (card : Node → Py Nat) :
    ∃ c, mkCpd .constant x (constFunc (intDist d v)) none [] dom card = .ok c ∧
      c.domain = d.dedup.insertionSort (· ≤ ·) ∧ c.var = x ∧ c.evidence = [] ∧ c.kind = .constant ∧
      ∀ dm y, y ∈ d → c.prob dm [] y = some (if y = v then 1 else 0) := by
  let S := d.dedup.insertionSort (· ≤ ·)
  have hSm : ∀ y, y ∈ S ↔ y ∈ d := fun y => by
    rw [List.mem_insertionSort, List.mem_dedup]
  have hSn : S.Nodup := (List.perm_insertionSort _ _).nodup_iff.2 (List.nodup_dedup _)
  have hposs : possibleValues (constFunc (intDist d v)) ((product []).map (pvOf [])) = .ok S := by
    simp only [possibleValues, product, List.map_cons, List.map_nil, mapPy, stochasticFunction, constFunc,
      List.flatMap_cons, List.flatMap_nil, List.append_nil, Except.ok.injEq, S]
    apply sorted_dedup_eq
    intro y
    rw [Dict.mem_keys, intDist_get?]
    constructor
    · rintro ⟨z, hz⟩
      split at hz
      · rename_i e; rw [e]; exact hv
      · split at hz
        · assumption
        · simp at hz
    · intro hy
      by_cases e : y = v
      · exact ⟨some 1, by simp [e]⟩
      · exact ⟨some 0, by simp [e, hy]⟩
  have hcol : column S (intDist d v) = .ok (S.map (fun y => if y = v then 1 else 0)) := by
    rw [column_ok (intDist_keys d v) hSn]
    congr 1
    apply List.map_congr_left
    intro y hy
    have hyd := (hSm y).1 hy
    simp only [given, intDist_get?]
    by_cases e : y = v <;> simp [e, hyd]
  have hsum : (S.map (fun y => if y = v then (1 : Rat) else 0)).sum = 1 := sum_indicator hSn ((hSm v).2 hv)
  have hmk : mkCpd .constant x (constFunc (intDist d v)) none [] dom card =
      .ok ⟨x, S, [], [], [S.map (fun y => if y = v then 1 else 0)], .constant, constFunc (intDist d v), none⟩ := by
    refine mkCpd_ok_iff.2 ⟨[], S, S, [], _, rfl, hposs, rfl, rfl, ?_, ?_, ?_, rfl, hSn, rfl⟩
    · simp only [product, List.map_cons, List.map_nil, mapPy, colFor, stochasticFunction, constFunc, hcol]
    · simp only [List.all_cons, List.all_nil, Bool.and_true, colClose, hsum]
      decide +kernel
    · simp only [List.all_cons, List.all_nil, Bool.and_true, colRange, List.all_map, List.all_eq_true]
      intro y _
      simp only [Function.comp_apply]
      split <;> decide +kernel
  refine ⟨_, hmk, rfl, rfl, rfl, rfl, fun dm y hy => ?_⟩
  simp only [Cpd.prob, Cpd.entry, Cpd.col, List.map_nil, product, List.zip_cons_cons, List.zip_nil_right,
    Dict.get?, if_true, Option.bind_some]
  exact get?_zip_map ((hSm y).2 hy)

/-- re-assigning children whose domain does not change -/
theorem refreshLoop {g : Graph} (hw : g.WF) {D : Dict Node (List Outcome)} {rel : Node → Option Rel}
    {T : Node → Cpd} {n : Nat} : ∀ (cs : List Node) (N : Net), N.g = g → (∀ w, N.domain.get? w = D.get? w) →
    (∀ w, N.rels.get? w = rel w) →
    (∀ p ∈ g.nodes, ∃ pc, N.cpds.get? p = some pc ∧ D.get? p = some pc.domain) →
    (∀ c ∈ cs, c ∈ g.nodes ∧ ∃ r, rel c = some r ∧ computed g D c r = .ok (T c) ∧ D.get? c = some (T c).domain ∧
      (T c).domain ≠ [] ∧ (T c).var = c ∧ ∀ y ∈ (T c).evidence, y ∈ g.nodes) →
    ∃ N', setLoop (setItem (n + 1)) N cs = (N', .ok ()) ∧ N'.m = N.m ∧ N'.base = N.base ∧
      (∀ w, N'.domain.get? w = D.get? w) ∧ (∀ w, N'.rels.get? w = rel w) ∧
      (N.rels.keys.Nodup → N'.rels.keys.Nodup) ∧
      ∀ w, N'.cpds.get? w = if w ∈ cs then some (T w) else N.cpds.get? w := by
  intro cs
  induction cs with
  | nil =>
    intro N h1 h2 h3 h4 _
    exact ⟨N, rfl, rfl, rfl, h2, h3, fun h => h, by simp⟩
  | cons c cs ih =>
    intro N h1 h2 h3 h4 h5
    obtain ⟨hcn, r, k1, k2, k3, k4, k5, k6⟩ := h5 c (by simp)
    have hirr : ∀ p, g.Edge p c → p ≠ c := fun p hp e => hw.acyclic c (TransGen.single (e ▸ hp))
    have ht : (stage N c r).toCpd c r = .ok (T c) := by
      refine toCpd_of_ready (D := D) h1 hcn k2 (Or.inr (fun p hp => ?_)) (fun p hp => (hw.edgeNodes p c hp).1)
      obtain ⟨pc, e1, e2⟩ := h4 p (hw.edgeNodes p c hp).1
      refine ⟨pc, by rw [stage_cpds]; simp [hirr p hp, e1], ?_, e2⟩
      rw [stage_domain, h2, e2]
    have hset : setItem (n + 1) N c r = (put N c r (T c), .ok ()) := by
      rcases setItem_cases n N c r with ⟨q1, q2⟩ | ⟨e, _, q1, q2⟩ | ⟨c', hc', q⟩
      · rw [ht] at q1; simp at q1
      · rw [ht] at q1; simp at q1
      · rw [ht] at hc'
        cases hc'
        have hsc : ∀ y ∈ (T c).var :: (T c).evidence, y ∈ N.g.nodes := by
          intro y hy
          rw [h1]
          rcases List.mem_cons.1 hy with rfl | hy
          · rw [k5]; exact hcn
          · exact k6 y hy
        have hold : N.domain.get? c = some (T c).domain := by rw [h2, k3]
        rcases q with ⟨q, _⟩ | ⟨_, q, _⟩ | ⟨_, _, _, _, q⟩ | ⟨_, _, q, _⟩
        · exact absurd hsc q
        · exact absurd k5 q
        · exact q
        · exact absurd ⟨k4, hold⟩ q
    obtain ⟨N', i1, i2, i3, i4, i5, i7, i6⟩ := ih (put N c r (T c)) h1
      (fun w => by
        rw [put_domain]
        split
        · rename_i e; rw [e, k3]
        · exact h2 w)
      (fun w => by
        rw [put_rels]
        split
        · rename_i e; rw [e, k1]
        · exact h3 w)
      (fun p hp => by
        rw [put_cpds]
        split
        · rename_i e; exact ⟨T c, rfl, by rw [e, k3]⟩
        · exact h4 p hp)
      (fun c' hc' => h5 c' (by simp [hc']))
    refine ⟨N', ?_, i2, i3, i4, i5, fun hnd => i7 (nodup_stage hnd), fun w => ?_⟩
    · unfold setLoop
      rw [h3 c, k1]
      simp only [hset]
      exact i1
    · rw [i6, put_cpds]
      by_cases hwc : w = c
      · subst hwc; simp
      · simp [hwc]

theorem cut_parents (g : Graph) (x w : Node) (h : w ≠ x) :
    ({ g with edges := g.edges.filter (fun e => decide (e.2 ≠ x)) } : Graph).parents w = g.parents w := by
  unfold Graph.parents
  simp only [List.filter_filter]
  congr 1
  apply List.filter_congr
  intro e _
  by_cases hw : e.2 = w
  · simp [hw, h]
  · simp [hw]

theorem mem_cut_edge {g : Graph} {x u w : Node} :
    ({ g with edges := g.edges.filter (fun e => decide (e.2 ≠ x)) } : Graph).Edge u w ↔ g.Edge u w ∧ w ≠ x := by
  unfold Graph.Edge
  simp [List.mem_filter]

theorem insertionSort_of_pairwise {d : List Outcome} (hs : d.Pairwise (· ≤ ·)) (hn : d.Nodup) :
    d.dedup.insertionSort (· ≤ ·) = d := by
  rw [hn.dedup]
  exact List.Perm.eq_of_pairwise (le := (· ≤ ·)) (fun a b _ _ h1 h2 => le_antisymm h1 h2)
    (List.pairwise_insertionSort _ _) hs (List.perm_insertionSort _ _)

/-- One intervention. -/
theorem interveneOne_spec {net : Net} (hG : Good net) {x : Node} {v : Outcome} (hx : x ∈ net.g.nodes)
    (hv : v ∈ net.dom x) (ht : net.Tame x) :
    ∃ net', net.interveneOne x v = (net', .ok ()) ∧ Good net' ∧ Cut net [(x, v)] net' ∧
      net'.m = { net.m with g := net'.g } ∧ net'.base = net.base ∧
      (∀ w, w ≠ x → net'.dom w = net.dom w) ∧ (net'.dom x).Pairwise (· ≤ ·) ∧
      (∀ w, w ≠ x → net'.rels.get? w = net.rels.get? w) ∧ (∀ c, net'.rels.get? x ≠ some (.tab c)) := by
  obtain ⟨cx, hcx, hdx⟩ := hG.complete x hx
  obtain ⟨_, rx, hrx, _⟩ := hG.reflects x cx hcx
  have hd : net.dom x = cx.domain := dom_eq hdx
  rw [hd] at hv
  have hcxw := hG.cpdOk x cx hcx
  generalize hgd : ({ net.g with edges := net.g.edges.filter (fun e => decide (e.2 ≠ x)) } : Graph) = g2
  have hE : ∀ u w, g2.Edge u w ↔ net.g.Edge u w ∧ w ≠ x := fun u w => by rw [← hgd]; exact mem_cut_edge
  have hgn : g2.nodes = net.g.nodes := by rw [← hgd]
  have hpar : ∀ w, w ≠ x → g2.parents w = net.g.parents w := fun w h => by rw [← hgd]; exact cut_parents _ _ _ h
  have hparx : g2.parents x = [] := by
    rw [List.eq_nil_iff_forall_not_mem]
    intro p hp
    exact ((hE p x).1 (Graph.mem_parents.1 hp)).2 rfl
  have hw2 : g2.WF := by
    refine wf_sub hG.wf (by rw [hgn]; exact hG.wf.nodesNodup) (by rw [← hgd]; exact hG.wf.edgesNodup.filter _) ?_ ?_
    · intro u w h
      rw [hgn]
      exact hG.wf.edgeNodes u w ((hE u w).1 h).1
    · intro u w h
      exact ((hE u w).1 h).1
  -- the network before the assignment
  let net2 : Net := { net with m := { net.m with g := g2 }, rels := net.rels.erase x, cpds := net.cpds.erase x }
  have hrun : net.interveneOne x v = net2.set x (.dist (intDist cx.domain v)) := by
    rw [interveneOne_eq (Dict.mem_keys.2 ⟨rx, hrx⟩) hx hdx, hgd]
  let r : Rel := .dist (intDist cx.domain v)
  obtain ⟨c0, hc0, hc0d, hc0v, hc0e, hc0k, hc0p⟩ := mkCpd_intDist (x := x) (d := cx.domain) (v := v) hv net.domain
    (stage net2 x r).card
  have hxn2 : x ∈ net2.g.nodes := by show x ∈ g2.nodes; rw [hgn]; exact hx
  have ht0 : (stage net2 x r).toCpd x r = .ok c0 := by
    have hp : (stage net2 x r).g.parents x = [] := hparx
    have hn : x ∈ (stage net2 x r).g.nodes := hxn2
    simp only [toCpd, r, hn, if_true]
    rw [hp]
    exact hc0
  have hSperm : c0.domain.Perm cx.domain := by
    rw [hc0d]
    exact (List.perm_insertionSort _ _).trans (by rw [hcxw.nodup.dedup])
  have hS0 : c0.domain ≠ [] := fun e => by
    rw [e] at hSperm
    exact hcxw.nonempty (List.Perm.nil_eq hSperm).symm
  have hSsorted : c0.domain.Pairwise (· ≤ ·) := by rw [hc0d]; exact List.pairwise_insertionSort _ _
  -- domains afterwards
  let D : Dict Node (List Outcome) := net.domain.set x c0.domain
  have hD : ∀ w, D.get? w = if w = x then some c0.domain else net.domain.get? w := fun w => Dict.get?_set _ _ _ _
  have hcardD : ∀ p, net.domain.get? p ≠ none → cardOf D p = cardOf net.domain p := by
    intro p hp
    unfold cardOf
    rw [hD]
    by_cases e : p = x
    · subst e; simp [hdx, hSperm.length_eq]
    · simp [e]
  -- CPDs afterwards
  have hT : ∀ w ∈ net.g.nodes, w ≠ x → ∃ t c rw', net.cpds.get? w = some c ∧ net.rels.get? w = some rw' ∧
      computed g2 D w rw' = .ok t ∧ t.domain = c.domain ∧ t.Fits g2 D w ∧
      t.WellFormed ∧ t.kind = c.kind ∧
      (∀ a, net.InDom a → ∀ y, t.prob D (t.evidence.map a) y = c.prob net.domain (c.evidence.map a) y) ∧
      (c0.domain = cx.domain ∨ ¬ net.g.Edge x w → t = c) := by
    intro w hwn hwx
    obtain ⟨c, hc, hdc⟩ := hG.complete w hwn
    obtain ⟨_, rw', hrw, hcomp⟩ := hG.reflects w c hc
    have hpn : ∀ p ∈ net.g.parents w, p ∈ net.g.nodes := fun p hp =>
      (hG.wf.edgeNodes p w (Graph.mem_parents.1 hp)).1
    have same : (∀ p ∈ net.g.parents w, D.get? p = net.domain.get? p) → computed g2 D w rw' = .ok c := by
      intro hs
      have hcc : ∀ p ∈ net.g.parents w, cardOf D p = cardOf net.domain p := fun p hp => by
        simp [cardOf, hs p hp]
      rw [← hcomp]
      cases rw' with
      | tab _ => rfl
      | func f => unfold computed; rw [hpar w hwx]; exact mkCpd_congr hs hcc
      | dist f => unfold computed; rw [hpar w hwx]; exact mkCpd_congr hs hcc
      | seq f => unfold computed; rw [hpar w hwx]; exact mkCpd_congr hs hcc
    have hfit := hG.fits w c hc
    have hDe : c0.domain = cx.domain → ∀ p, D.get? p = net.domain.get? p := by
      intro e p
      rw [hD]
      split
      · rename_i e'; rw [e', hdx, e]
      · rfl
    by_cases hsm : c0.domain = cx.domain ∨ ¬ net.g.Edge x w
    · have hs : ∀ p, net.g.Edge p w → D.get? p = net.domain.get? p := by
        intro p hp
        rcases hsm with h | h
        · exact hDe h p
        · rw [hD, if_neg]
          rintro rfl
          exact h hp
      refine ⟨c, c, rw', hc, hrw, same (fun p hp => hs p (Graph.mem_parents.1 hp)), rfl,
        ⟨hfit.var, fun p => ?_, ?_, hfit.sums⟩, hG.cpdOk w c hc, rfl,
        fun a _ y => prob_congr (fun p hp => hs p ((hfit.parents p).1 hp)) _ _, fun _ => rfl⟩
      · rw [hE, hfit.parents]; simp [hwx]
      · rw [hfit.cards]
        apply List.map_congr_left
        intro p hp
        rw [hs p ((hfit.parents p).1 hp)]
    · have hsm' := hsm
      push Not at hsm'
      obtain ⟨hne, hed⟩ := hsm'
      have hnt : ∀ c, rw' ≠ .tab c := by
        rintro c' rfl
        rcases ht with h | h
        · rw [hd] at h
          exact hne (by rw [hc0d]; exact insertionSort_of_pairwise h hcxw.nodup)
        · exact h w c' hed hrw
      have key : ∀ {kind f force}, mkCpd kind w f force (net.g.parents w) net.domain (cardOf net.domain) = .ok c →
          ∃ t, mkCpd kind w f force (g2.parents w) D (cardOf D) = .ok t ∧ t.domain = c.domain ∧
            t.Fits g2 D w ∧ t.WellFormed ∧ t.kind = c.kind ∧
            (∀ a, net.InDom a → ∀ y, t.prob D (t.evidence.map a) y = c.prob net.domain (c.evidence.map a) y) := by
        intro kind f force hm
        obtain ⟨t, e1, e2, e3⟩ := mkCpd_reorder (dom' := D) (card' := cardOf D)
          (Graph.nodup_parents hG.wf.edgesNodup w) (ps' := g2.parents w) (by rw [hpar w hwx]) hm
          (fun p _ d hpd => by
            rw [hD]
            by_cases e : p = x
            · subst e
              rw [hdx] at hpd
              cases hpd
              exact ⟨c0.domain, by simp, hSperm⟩
            · exact ⟨d, by simp [e, hpd], .refl _⟩)
          (fun p hp => hcardD p (by
            obtain ⟨pc, _, e2⟩ := hG.complete p (hpn p hp)
            rw [e2]; simp))
        exact ⟨t, e1, e2, mkCpd_fits e1, mkCpd_wf e1 (Graph.nodup_parents hw2.edgesNodup w)
          (e2 ▸ (hG.cpdOk w c hc).nonempty), by rw [(mkCpd_fields e1).2.2.1, (mkCpd_fields hm).2.2.1],
          fun a ha y => e3 a (ha.inDoms hG.complete hpn) y⟩
      cases rw' with
      | tab c' => exact absurd rfl (hnt c')
      | func f =>
        unfold computed at hcomp
        obtain ⟨t, e⟩ := key hcomp
        exact ⟨t, c, _, hc, hrw, e.1, e.2.1, e.2.2.1, e.2.2.2.1, e.2.2.2.2.1, e.2.2.2.2.2, fun h => absurd h hsm⟩
      | dist f =>
        unfold computed at hcomp
        obtain ⟨t, e⟩ := key hcomp
        exact ⟨t, c, _, hc, hrw, e.1, e.2.1, e.2.2.1, e.2.2.2.1, e.2.2.2.2.1, e.2.2.2.2.2, fun h => absurd h hsm⟩
      | seq f =>
        unfold computed at hcomp
        obtain ⟨t, e⟩ := key hcomp
        exact ⟨t, c, _, hc, hrw, e.1, e.2.1, e.2.2.1, e.2.2.2.1, e.2.2.2.2.1, e.2.2.2.2.2, fun h => absurd h hsm⟩
  have : Nonempty Cpd := ⟨c0⟩
  have : Nonempty Rel := ⟨r⟩
  choose! T C R hC hR hTc hTd hTf hTw hTk hTp hTs using hT
  have hrel : ∀ w, w ≠ x → net2.rels.get? w = net.rels.get? w := fun w h => by
    show (net.rels.erase x).get? w = _
    rw [Dict.get?_erase, if_neg h]
  have hcpd2 : ∀ w, net2.cpds.get? w = if w = x then none else net.cpds.get? w := fun w => Dict.get?_erase _ _ _
  have hkeys2 : net2.rels.keys.Nodup := Dict.nodup_keys_erase hG.keys
  -- the assignment
  have hfinal : ∃ N', net2.set x r = (N', .ok ()) ∧ N'.m = net2.m ∧ N'.base = net.base ∧
      (∀ w, N'.domain.get? w = D.get? w) ∧
      (∀ w, N'.rels.get? w = if w = x then some r else net.rels.get? w) ∧ N'.rels.keys.Nodup ∧
      ∀ w, N'.cpds.get? w = if w = x then some c0 else if w ∈ net.g.nodes then some (T w) else net.cpds.get? w := by
    have hputr : ∀ w, (put net2 x r c0).rels.get? w = if w = x then some r else net.rels.get? w := fun w => by
      rw [put_rels]
      split
      · rfl
      · rename_i h; exact hrel w h
    have hputd : ∀ w, (put net2 x r c0).domain.get? w = D.get? w := fun w => by
      rw [put_domain, hD]
    have hputc : ∀ w, (put net2 x r c0).cpds.get? w = if w = x then some c0 else net.cpds.get? w := fun w => by
      rw [put_cpds, hcpd2]
      split <;> rfl
    have hputk : (put net2 x r c0).rels.keys.Nodup := nodup_stage hkeys2
    have hsc : ∀ y ∈ c0.var :: c0.evidence, y ∈ net2.g.nodes := by
      intro y hy
      rw [hc0e, hc0v, List.mem_singleton] at hy
      rw [hy]; exact hxn2
    have hnx : ∀ w ∈ net.g.nodes, ∀ c, net.cpds.get? w = some c → c = C w ∨ w = x := by
      intro w hwn c hc
      by_cases e : w = x
      · exact Or.inr e
      · rw [hC w hwn e] at hc; exact Or.inl (by simpa using hc.symm)
    unfold set
    rcases setItem_cases net2.g.nodes.length net2 x r with ⟨q1, q2⟩ | ⟨e, _, q1, q2⟩ | ⟨c', hc', q⟩
    · rw [ht0] at q1; simp at q1
    · rw [ht0] at q1; simp at q1
    · rw [ht0] at hc'
      cases hc'
      rcases q with ⟨q, _⟩ | ⟨_, q, _⟩ | ⟨_, _, _, q1, q⟩ | ⟨_, _, q1, q⟩
      · exact absurd hsc q
      · exact absurd hc0v q
      · refine ⟨_, q, rfl, rfl, hputd, hputr, hputk, fun w => ?_⟩
        rw [hputc]
        split
        · rfl
        · rename_i hwx
          split
          · rename_i hwn
            have hde : c0.domain = cx.domain := by
              have : net.domain.get? x = some c0.domain := q1
              rw [hdx] at this
              simpa using this.symm
            rw [hC w hwn hwx, hTs w hwn hwx (Or.inl hde)]
          · rfl
      · have hne : c0.domain ≠ cx.domain := fun e => q1 ⟨hS0, by show net.domain.get? x = _; rw [hdx, e]⟩
        obtain ⟨k, hk⟩ : ∃ k, net2.g.nodes.length = k + 1 :=
          Nat.exists_eq_succ_of_ne_zero (fun e => by
            rw [List.length_eq_zero_iff.1 e] at hxn2
            simp at hxn2)
        have hch : ∀ c ∈ net2.g.children x, c ∈ net.g.nodes ∧ c ≠ x := by
          intro c hc
          have := (hE x c).1 (Graph.mem_children.1 hc)
          exact ⟨(hG.wf.edgeNodes x c this.1).2, this.2⟩
        obtain ⟨N', i1, i2, i3, i4, i5, i7, i6⟩ := refreshLoop (g := g2) hw2 (D := D)
          (rel := fun w => if w = x then some r else net.rels.get? w) (T := T) (n := k) (net2.g.children x)
          (put net2 x r c0) rfl hputd hputr
          (fun p hp => by
            rw [hgn] at hp
            rw [hputc, hD]
            split
            · exact ⟨c0, rfl, rfl⟩
            · rename_i e
              exact hG.complete p hp)
          (fun c hc => by
            obtain ⟨h1, h2⟩ := hch c hc
            refine ⟨by rw [hgn]; exact h1, R c, by simp only [h2, if_false]; exact hR c h1 h2, hTc c h1 h2, ?_,
              (hTw c h1 h2).nonempty, (hTf c h1 h2).var, fun y hy =>
                (hw2.edgeNodes y c (((hTf c h1 h2).parents y).1 hy)).1⟩
            rw [hD, if_neg h2, (hG.reflects c (C c) (hC c h1 h2)).1, hTd c h1 h2])
        refine ⟨N', by rw [q, hk]; exact i1, i2, i3, i4, i5, i7 hputk, fun w => ?_⟩
        rw [i6, hputc]
        by_cases hwx : w = x
        · subst hwx
          rw [if_neg (fun h => (hch w h).2 rfl)]
          simp
        · simp only [hwx, if_false]
          by_cases hwc : w ∈ net2.g.children x
          · simp [hwc, (hch w hwc).1]
          · simp only [hwc, if_false]
            split
            · rename_i hwn
              rw [hC w hwn hwx, hTs w hwn hwx (Or.inr (fun h => hwc (Graph.mem_children.2 ((hE x w).2 ⟨h, hwx⟩))))]
            · rfl
  obtain ⟨N', f1, f2, f3, f4, f5, f6, f7⟩ := hfinal
  have hg' : N'.g = g2 := by show N'.m.g = g2; rw [f2]
  have hdomx : N'.dom x = c0.domain := dom_eq (by rw [f4, hD]; simp)
  have hdomw : ∀ w, w ≠ x → N'.dom w = net.dom w := fun w h => by
    simp only [dom, f4, hD, h, if_false]
  have hnode : ∀ w c, N'.cpds.get? w = some c → w ∈ net.g.nodes := by
    intro w c h
    rw [f7] at h
    by_cases hwx : w = x
    · rw [hwx]; exact hx
    · by_cases hwn : w ∈ net.g.nodes
      · exact hwn
      · simp only [hwx, hwn, if_false] at h
        obtain ⟨_, r', h2, _⟩ := hG.reflects w c h
        exact absurd (hG.relNodes w (Dict.mem_keys.2 ⟨r', h2⟩)) hwn
  have hcN : ∀ w ∈ net.g.nodes, w ≠ x → N'.cpds.get? w = some (T w) := fun w hwn h => by
    rw [f7]; simp [h, hwn]
  have hcx' : N'.cpds.get? x = some c0 := by rw [f7]; simp
  have hInDom : ∀ a, N'.InDom a ↔ net.InDom a := by
    intro a
    unfold InDom
    rw [hg', hgn]
    refine forall₂_congr (fun w _ => ?_)
    by_cases e : w = x
    · subst e; rw [hdomx, hd]; exact hSperm.mem_iff
    · rw [hdomw w e]
  have hcards : mapPy (cardOf D) (g2.parents x) = .ok [] := by rw [hparx]; rfl
  have hcomp0 : computed g2 D x r = .ok c0 := by
    unfold computed
    simp only [r]
    rw [hparx, ← hc0]
    exact mkCpd_congr (by simp) (by simp)
  refine ⟨N', by rw [hrun]; exact f1, ⟨hg' ▸ hw2, f6, ?_, ?_, ?_, ?_, ?_, ?_⟩, ⟨by rw [hg', hgn], ?_, ?_, fun w h => hdomw w (by simpa using h), ?_, ?_, ?_, ?_⟩,
    by rw [f2, hg'], f3, hdomw, by rw [hdomx]; exact hSsorted, fun w h => by rw [f5, if_neg h], fun c => by rw [f5]; simp [r]⟩
  · intro w hw
    obtain ⟨r', h⟩ := Dict.mem_keys.1 hw
    rw [f5] at h
    rw [hg', hgn]
    split at h
    · rename_i e; rw [e]; exact hx
    · exact hG.relNodes w (Dict.mem_keys.2 ⟨r', h⟩)
  · intro w c hc
    have hwn := hnode w c hc
    by_cases e : w = x
    · subst e
      rw [hcx'] at hc
      cases hc
      refine ⟨by rw [f4, hD]; simp, r, by rw [f5]; simp, ?_⟩
      rw [hg', ← hcomp0]
      exact computed_congr (fun p _ => f4 p)
    · rw [hcN w hwn e] at hc
      cases hc
      refine ⟨?_, R w, by rw [f5, if_neg e]; exact hR w hwn e, ?_⟩
      · rw [f4, hD, if_neg e, (hG.reflects w (C w) (hC w hwn e)).1, hTd w hwn e]
      · rw [hg', ← hTc w hwn e]
        exact computed_congr (fun p _ => f4 p)
  · intro w hw
    rw [hg', hgn] at hw
    by_cases e : w = x
    · subst e
      exact ⟨c0, hcx', by rw [f4, hD]; simp⟩
    · refine ⟨T w, hcN w hw e, ?_⟩
      rw [f4, hD, if_neg e, (hG.reflects w (C w) (hC w hw e)).1, hTd w hw e]
  · intro w c hc
    have hwn := hnode w c hc
    have hfc : ∀ c : Cpd, c.Fits g2 D w → c.Fits N'.g N'.domain w := by
      intro c hf
      rw [hg']
      refine ⟨hf.var, hf.parents, ?_, hf.sums⟩
      rw [hf.cards]
      apply List.map_congr_left
      intro p _
      rw [f4]
    apply hfc
    by_cases e : w = x
    · subst e
      rw [hcx'] at hc
      cases hc
      unfold computed at hcomp0
      exact mkCpd_fits hcomp0
    · rw [hcN w hwn e] at hc
      cases hc
      exact hTf w hwn e
  · intro w c hc
    have hwn := hnode w c hc
    by_cases e : w = x
    · subst e
      rw [hcx'] at hc
      cases hc
      unfold computed at hcomp0
      exact mkCpd_wf hcomp0 (by rw [hparx]; simp) hS0
    · rw [hcN w hwn e] at hc
      cases hc
      exact hTw w hwn e
  · intro w c hc hk
    rw [f5] at hc
    split at hc
    · simp [r] at hc
    · rename_i e
      have hwn : w ∈ net.g.nodes := hG.relNodes w (Dict.mem_keys.2 ⟨_, hc⟩)
      obtain ⟨c', k1, k2, k3⟩ := hG.tabs w c hc hk
      have hev' : c'.evidence = net.g.parents w := (mkCpd_fields k1).2.1
      have hCw : C w = c := by
        obtain ⟨_, r', h2, h3⟩ := hG.reflects w (C w) (hC w hwn e)
        rw [hc] at h2
        cases h2
        simpa [computed] using h3.symm
      have hev : ∀ p, p ∈ c.evidence ↔ net.g.Edge p w := by
        rw [← hCw]
        exact (hG.fits w _ (hC w hwn e)).parents
      have hs : ∀ p, net.g.Edge p w → N'.domain.get? p = net.domain.get? p := by
        intro p hp
        rw [f4, hD]
        split
        · rename_i e'
          subst e'
          rcases ht with h | h
          · rw [hdx, hc0d, insertionSort_of_pairwise (by rw [← hd]; exact h) hcxw.nodup]
          · exact absurd hc (h w c hp)
        · rfl
      refine ⟨c', ?_, k2, fun a ha y => ?_⟩
      · rw [hg', hpar w e, ← k1]
        exact mkCpd_congr (fun p hp => hs p (Graph.mem_parents.1 hp))
          (fun p hp => by simp [cardOf, hs p (Graph.mem_parents.1 hp)])
      · rw [prob_congr (c := c') (fun p hp => hs p (Graph.mem_parents.1 (hev' ▸ hp))),
          prob_congr (c := c) (fun p hp => hs p ((hev p).1 hp))]
        exact k3 a ((hInDom a).1 ha) y
  · intro u w
    rw [hg', hE]; simp
  · intro w _
    by_cases e : w = x
    · subst e; rw [hdomx, hd]; exact hSperm
    · rw [hdomw w e]
  · intro n
    rw [f2]
    rfl
  · intro w hwn h
    have e : w ≠ x := by simpa using h
    simp only [Net.undecided, hcN w hwn e, hC w hwn e, hTk w hwn e]
  · intro w hwn h a ha
    have e : w ≠ x := by simpa using h
    simp only [kernel, hcN w hwn e, hC w hwn e]
    rw [prob_congr (c := T w) (fun p _ => f4 p), hTp w hwn e a ha]
  · intro y u hyu a ha
    simp only [List.mem_singleton, Prod.mk.injEq] at hyu
    obtain ⟨rfl, rfl⟩ := hyu
    have hay : a y ∈ cx.domain := by rw [← hd]; exact ha y hx
    simp only [kernel, hcx', hc0e, List.map_nil, hc0p _ _ hay, Option.getD_some]

end Net
end Verif

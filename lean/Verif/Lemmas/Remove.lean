import Verif.Model.Remove
import Verif.Lemmas.Query
import Verif.Lemmas.Copy

/-! `remove_node` on sound networks. -/

namespace Verif
open Net
namespace Net

/-- lookup in the relationships after the object of one node was changed -/
theorem get?_map_touch (d : Dict Node Rel) (w : Node) (c : Cpd) (u : Node) :
    Dict.get? (d.map (fun p => if p.1 = w then (p.1, touch c p.2) else p)) u =
      if u = w then (Dict.get? d u).map (touch c) else Dict.get? d u := by
  induction d with
  | nil => simp [Dict.get?]
  | cons p d ih =>
    obtain ⟨k, r⟩ := p
    by_cases hk : k = w
    · subst hk
      by_cases hu : k = u
      · subst hu; simp [Dict.get?]
      · simp [Dict.get?, hu, ih, Ne.symm hu]
    · by_cases hu : k = u
      · subst hu; simp [Dict.get?, hk]
      · simp [Dict.get?, hk, hu, ih]

theorem keys_map_touch (d : Dict Node Rel) (w : Node) (c : Cpd) :
    Dict.keys (d.map (fun p => if p.1 = w then (p.1, touch c p.2) else p)) = d.keys := by
  unfold Dict.keys
  rw [List.map_map]
  apply List.map_congr_left
  intro p _
  simp only [Function.comp]
  split <;> rfl

/-- the effect of the loop over the children -/
theorem averageOut_spec (v : Node) : ∀ (ws : List Node) (net : Net), ws.Nodup →
    (∀ w ∈ ws, ∃ c c', net.cpds.get? w = some c ∧ c.margOut net.domain v = .ok c') →
    ∃ net', averageOut v net ws = (net', .ok ()) ∧ net'.m = net.m ∧ net'.base = net.base ∧ net'.domain = net.domain ∧
      net'.rels.keys = net.rels.keys ∧
      (∀ u, u ∉ ws → net'.cpds.get? u = net.cpds.get? u ∧ net'.rels.get? u = net.rels.get? u) ∧
      (∀ u ∈ ws, ∀ c c', net.cpds.get? u = some c → c.margOut net.domain v = .ok c' →
        net'.cpds.get? u = some c' ∧ net'.rels.get? u = (net.rels.get? u).map (touch c')) := by
  intro ws
  induction ws with
  | nil => intro net _ _; exact ⟨net, rfl, rfl, rfl, rfl, rfl, fun u _ => ⟨rfl, rfl⟩, fun u h => by simp at h⟩
  | cons w ws ih =>
    intro net hn h
    obtain ⟨c, c', h1, h2⟩ := h w (by simp)
    have hw := List.nodup_cons.1 hn
    set n1 : Net := { net with
          cpds := net.cpds.set w c'
          rels := net.rels.map (fun p => if p.1 = w then (p.1, touch c' p.2) else p) } with hn1
    have hc1 : ∀ u, n1.cpds.get? u = if u = w then some c' else net.cpds.get? u := fun u => Dict.get?_set _ _ _ _
    have hr1 : ∀ u, n1.rels.get? u = if u = w then (net.rels.get? u).map (touch c') else net.rels.get? u :=
      fun u => get?_map_touch _ _ _ _
    obtain ⟨net', k1, k2, k3, k4, k5, k6, k7⟩ := ih n1 hw.2 (fun u hu => by
      obtain ⟨d, d', e1, e2⟩ := h u (by simp [hu])
      have : u ≠ w := fun e => hw.1 (e ▸ hu)
      exact ⟨d, d', by rw [hc1, if_neg this, e1], e2⟩)
    refine ⟨net', ?_, k2, k3, k4, k5.trans (keys_map_touch _ _ _), ?_, ?_⟩
    · unfold averageOut
      rw [h1]
      simp only [h2]
      exact k1
    · intro u hu
      have hne : u ≠ w := fun e => hu (by simp [e])
      have := k6 u (fun e => hu (by simp [e]))
      rw [hc1, hr1, if_neg hne, if_neg hne] at this
      exact this
    · intro u hu d d' e1 e2
      by_cases hne : u = w
      · subst hne
        rw [h1] at e1
        cases e1
        rw [h2] at e2
        cases e2
        have := k6 u hw.1
        rw [hc1, hr1, if_pos rfl, if_pos rfl] at this
        exact this
      · have := k7 u (by simpa [hne] using hu) d d' (by rw [hc1, if_neg hne, e1]) e2
        rw [hr1, if_neg hne] at this
        exact this

/-- the new column of a child -/
theorem margOut_prob {net : Net} (hU : net.Good) (hN : net.Normalised) {v w : Node} (he : net.g.Edge v w) {c : Cpd}
    (hc : net.cpds.get? w = some c) :
    ∃ c', c.margOut net.domain v = .ok c' ∧ c'.var = c.var ∧ c'.domain = c.domain ∧ c'.kind = c.kind ∧ c'.func = c.func ∧
      c'.force = c.force ∧ c'.evidence = c.evidence.filter (fun p => decide (p ≠ v)) ∧
      c'.evCard = c'.evidence.map (fun p => ((net.domain.get? p).getD []).length) ∧
      (∀ col ∈ c'.table, col.sum = 1) ∧
      ∀ a, (∀ u ∈ net.g.nodes, u ≠ v → a u ∈ net.dom u) →
        (c'.prob net.domain (c'.evidence.map a) (a w)).getD 0 =
          ((net.dom v).map (fun x => net.kernel w (Assign.upd a v x))).sum / (net.dom v).length := by
  have hF := hU.fits w c hc
  have hW := hU.cpdOk w c hc
  have hwn := (hU.wf.edgeNodes v w he).2
  have hvn := (hU.wf.edgeNodes v w he).1
  have hv : v ∈ c.evidence := (hF.parents v).2 he
  have hdw : c.domain = net.dom w := by
    obtain ⟨d, h1, h2⟩ := hU.complete w hwn
    rw [hc] at h1
    cases h1
    exact (dom_eq h2).symm
  have hwv : w ≠ v := fun e => hU.wf.acyclic w (.single (e ▸ he))
  have hwe : w ∉ c.evidence := fun h => hU.wf.acyclic w (.single ((hF.parents w).1 h))
  have hev : ∀ p ∈ c.evidence, p ∈ net.g.nodes := fun p hp => (hU.wf.edgeNodes p w ((hF.parents p).1 hp)).1
  set names : Node → List Outcome := fun p => (net.domain.get? p).getD [] with hnames
  set ps := c.evidence.filter (fun p => decide (p ≠ v)) with hps
  have hpn : ps.Nodup := hW.evidence.filter _
  set weight : List Outcome → Outcome → Rat := fun vals y => ((names v).map (fun x =>
      (c.prob net.domain (c.evidence.map (fun p => if p = v then x else (pvOf ps vals p).getD 0)) y).getD 0)).sum with hweight
  have hlen : (net.dom v).length ≠ 0 := fun e => (dom_props hU hvn).2 (List.eq_nil_of_length_eq_zero e)
  -- the weights
  have hwt : ∀ a : Assign, ∀ y, weight (ps.map a) y =
      ((net.dom v).map (fun x => net.kernel w (Assign.upd (Assign.upd a v x) w y))).sum := by
    intro a y
    simp only [hweight]
    show ((net.dom v).map _).sum = _
    congr 1
    apply List.map_congr_left
    intro x _
    unfold Net.kernel
    rw [hc]
    simp only [Assign.upd_same]
    congr 2
    apply List.map_congr_left
    intro p hp
    rw [Assign.upd_ne _ _ (show p ≠ w from fun e => hwe (e ▸ hp))]
    by_cases hpv : p = v
    · subst hpv; simp
    · rw [if_neg hpv, Assign.upd_ne _ _ hpv]
      have hpp : p ∈ ps := List.mem_filter.2 ⟨hp, by simpa using hpv⟩
      rw [show pvOf ps (ps.map a) p = some (a p) from get?_zip_map hpp]
      rfl
  have htot : ∀ a : Assign, (∀ u ∈ net.g.nodes, u ≠ v → a u ∈ net.dom u) →
      (c.domain.map (weight (ps.map a))).sum = (net.dom v).length := by
    intro a ha
    rw [hdw, List.map_congr_left (fun y _ => hwt a y), sum_map_sum_comm]
    have : ∀ x ∈ net.dom v, ((net.dom w).map (fun y => net.kernel w (Assign.upd (Assign.upd a v x) w y))).sum = 1 := by
      intro x hx
      refine (hN w hwn (Assign.upd a v x) (fun u hu => ?_)).2
      by_cases huv : u = v
      · subst huv; simpa using hx
      · rw [Assign.upd_ne _ _ huv]; exact ha u hu huv
    rw [List.map_congr_left this]
    simp
  refine ⟨{ c with
      evidence := ps
      evCard := ((c.evidence.zip c.evCard).filter (fun p => decide (p.1 ≠ v))).map (·.2)
      table := (product (ps.map names)).map (fun vals =>
        c.domain.map (fun y => weight vals y / (c.domain.map (weight vals)).sum)) }, ?_, rfl, rfl, rfl, rfl, rfl, rfl, ?_, ?_, ?_⟩
  · unfold Cpd.margOut
    rw [if_neg (not_not.2 hv)]
  · show ((c.evidence.zip c.evCard).filter (fun p => decide (p.1 ≠ v))).map (·.2) = ps.map _
    rw [hF.cards, List.zip_map_right, List.filter_map, List.map_map, hps]
    have : ∀ l : List Node, ((l.zip l).filter ((fun p => decide (p.1 ≠ v)) ∘ Prod.map id (fun p => ((net.domain.get? p).getD []).length))).map
        ((fun p => p.2) ∘ Prod.map id (fun p => ((net.domain.get? p).getD []).length)) =
        (l.filter (fun p => decide (p ≠ v))).map (fun p => ((net.domain.get? p).getD []).length) := by
      intro l
      induction l with
      | nil => rfl
      | cons p l ih =>
        by_cases h : p = v
        · simpa [h] using ih
        · simpa [h] using ih
    exact this _
  · intro col hcol
    obtain ⟨vals, hvals, rfl⟩ := List.mem_map.1 hcol
    have hpl : vals.length = ps.length := by simpa using (mem_product.1 hvals).length_eq
    obtain ⟨a, ha1, ha2⟩ := exists_inDom hU (fun p => (pvOf ps vals p).getD 0) (· ∈ ps) (fun u hu hun => by
      have h1 := mem_product.1 hvals
      have h2 := pvOf_forall₂ hpn hpl.symm
      obtain ⟨i, hi, e⟩ := List.getElem_of_mem hu
      have hi' : i < vals.length := by omega
      have e1 := List.Forall₂.get h2 hi hi'
      have e2 := List.Forall₂.get h1 hi' (by simpa using hi)
      simp only [List.get_eq_getElem, List.getElem_map] at e1 e2
      rw [e] at e1 e2
      rw [e1]
      exact e2)
    have hva : vals = ps.map a := by
      have h2 := pvOf_forall₂ hpn hpl.symm
      apply List.ext_getElem (by simpa using hpl)
      intro i hi hi'
      have hi2 : i < ps.length := by simpa using hi'
      have e1 := List.Forall₂.get h2 hi2 hi
      simp only [List.get_eq_getElem] at e1
      rw [List.getElem_map, ha2 _ (List.getElem_mem _), e1]
      rfl
    have ht := htot a (fun u hu _ => ha1 u hu)
    rw [← hva] at ht
    show (c.domain.map (fun y => weight vals y / (c.domain.map (weight vals)).sum)).sum = 1
    rw [ht]
    have : (c.domain.map (fun y => weight vals y / ((net.dom v).length : Rat))).sum =
        (c.domain.map (weight vals)).sum / (net.dom v).length := by
      induction c.domain with
      | nil => simp
      | cons y l ih => simp only [List.map_cons, List.sum_cons, ih]; ring
    rw [this, ht]
    exact div_self (by exact_mod_cast hlen)
  · intro a ha
    have h1 : ps.map a ∈ product (ps.map names) := by
      rw [mem_product, List.forall₂_map_left_iff, List.forall₂_map_right_iff, List.forall₂_same]
      intro p hp
      obtain ⟨hp1, hp2⟩ := List.mem_filter.1 hp
      exact ha p (hev p hp1) (by simpa using hp2)
    have h2 : a w ∈ c.domain := hdw ▸ ha w hwn hwv
    have key : Dict.get? ((product (ps.map names)).zip ((product (ps.map names)).map (fun vals =>
        c.domain.map (fun y => weight vals y / (c.domain.map (weight vals)).sum)))) (ps.map a) =
        some (c.domain.map (fun y => weight (ps.map a) y / (c.domain.map (weight (ps.map a))).sum)) := get?_zip_map h1
    unfold Cpd.prob Cpd.entry Cpd.col
    simp only
    rw [key, Option.bind_some, get?_zip_map h2, Option.getD_some, htot a ha, hwt]
    congr 2
    apply List.map_congr_left
    intro x _
    congr 1
    have := Assign.upd_self (Assign.upd a v x) w
    rw [Assign.upd_ne _ _ hwv] at this
    exact this

end Net
end Verif

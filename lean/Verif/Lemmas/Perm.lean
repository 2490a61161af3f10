import Verif.Lemmas.Net
import Mathlib.Data.List.Sort

/-!
# CPDs do not depend on the order in which parents are listed
-/

namespace Verif
open Relation

/-- the keyword arguments an assignment gives to a function of `ps` -/
def restrict (ps : List Node) (a : Assign) : PV := fun p => if p ∈ ps then some (a p) else none

theorem pvOf_map (ps : List Node) (a : Assign) : pvOf ps (ps.map a) = restrict ps a := by
  funext p
  unfold pvOf restrict
  induction ps with
  | nil => rfl
  | cons q ps ih =>
    simp only [List.map_cons, List.zip_cons_cons, Dict.get?, List.mem_cons]
    by_cases h : q = p
    · simp [h]
    · simp only [h, if_false, ih]
      simp [Ne.symm h]

theorem restrict_perm {ps ps' : List Node} (h : ∀ p, p ∈ ps' ↔ p ∈ ps) (a : Assign) :
    restrict ps' a = restrict ps a := by
  funext p
  simp [restrict, h]

/-- values in the recorded domains -/
def InDoms (dom : Dict Node (List Outcome)) (ps : List Node) (a : Assign) : Prop :=
  ∀ p ∈ ps, ∃ d, dom.get? p = some d ∧ a p ∈ d

theorem inst_of_inDoms {dom : Dict Node (List Outcome)} {ps : List Node} {a : Assign}
    (h : InDoms dom ps a) : Instantiation ps dom (ps.map a) := by
  unfold Instantiation
  rw [List.forall₂_map_right_iff, List.forall₂_same]
  exact h

theorem exists_assign {dom : Dict Node (List Outcome)} {ps : List Node} (hn : ps.Nodup) {vals : List Outcome}
    (h : Instantiation ps dom vals) : ∃ a, vals = ps.map a ∧ InDoms dom ps a := by
  induction h with
  | nil => exact ⟨fun _ => 0, rfl, by simp [InDoms]⟩
  | @cons p x ps vals h _ ih =>
    rw [List.nodup_cons] at hn
    obtain ⟨a, rfl, ha⟩ := ih hn.2
    refine ⟨Assign.upd a p x, ?_, ?_⟩
    · simp only [List.map_cons, Assign.upd, if_true, List.cons.injEq, true_and]
      apply List.map_congr_left
      intro q hq
      have : q ≠ p := fun e => hn.1 (e ▸ hq)
      simp [Assign.upd, this]
    · intro q hq
      by_cases e : q = p
      · subst e; simpa [Assign.upd] using h
      · rcases List.mem_cons.1 hq with hq | hq
        · exact absurd hq e
        · simpa [Assign.upd, e] using ha q hq

theorem mem_pvs {ps : List Node} {dom : Dict Node (List Outcome)} {ds : List (List Outcome)} (hn : ps.Nodup)
    (h : parentDoms ps dom = .ok ds) (pv : PV) :
    pv ∈ (product ds).map (pvOf ps) ↔ ∃ a, InDoms dom ps a ∧ pv = restrict ps a := by
  rw [parentDoms_ok] at h
  rw [List.mem_map]
  constructor
  · rintro ⟨vals, hv, rfl⟩
    obtain ⟨a, rfl, ha⟩ := exists_assign hn ((inst_iff h).1 hv)
    exact ⟨a, ha, pvOf_map ps a⟩
  · rintro ⟨a, ha, rfl⟩
    exact ⟨ps.map a, (inst_iff h).2 (inst_of_inDoms ha), pvOf_map ps a⟩

/-- the entry of a constructed CPD under an assignment -/
theorem mkCpd_assign {kind : CpdKind} {v : Node} {f : Func} {force : Option (List Outcome)}
    {ps : List Node} {dom : Dict Node (List Outcome)} {card : Node → Py Nat} {c : Cpd}
    (h : mkCpd kind v f force ps dom card = .ok c) {a : Assign} (ha : InDoms dom ps a) :
    ∃ col, colFor f c.domain (restrict ps a) = .ok col ∧ col ∈ c.table ∧
      c.col (ps.map (fun p => (dom.get? p).getD [])) (ps.map a) = some col ∧
      ∀ x, c.prob dom (c.evidence.map a) x = Dict.get? (c.domain.zip col) x := by
  obtain ⟨ds, possible, domain, cards, cols, h1, h2, h3, h4, h5, h6, h7, h8, h9, rfl⟩ := mkCpd_ok_iff.1 h
  rw [parentDoms_ok] at h1
  have hds := forall₂_doms h1
  have hmem : ps.map a ∈ product ds := (inst_iff h1).2 (inst_of_inDoms ha)
  have hcols := mapPy_eq_map [] h5
  rw [List.map_map] at hcols
  obtain ⟨col, hcm, hcol⟩ := mapPy_mem h5 (List.mem_map_of_mem (f := pvOf ps) hmem)
  rw [pvOf_map] at hcol
  have key : Dict.get? ((product ds).zip cols) (ps.map a) = some col := by
    rw [hcols, get?_zip_map hmem]
    simp only [Function.comp_apply, pvOf_map, hcol]
  refine ⟨col, hcol, hcm, ?_, fun x => ?_⟩
  · show Dict.get? ((product (ps.map (fun p => (dom.get? p).getD []))).zip cols) (ps.map a) = _
    rw [← hds, key]
  · simp only [Cpd.prob, Cpd.entry, Cpd.col]
    rw [← hds, key]
    rfl

theorem mapPy_ok_of_mem {α β : Type} {f : α → Py β} {xs ys : List α} {zs : List β} (h : mapPy f xs = .ok zs)
    (hm : ∀ y ∈ ys, y ∈ xs) : ∃ ws, mapPy f ys = .ok ws ∧ ∀ w ∈ ws, w ∈ zs := by
  obtain ⟨ws, h1, _⟩ := mapPy_ok (f := f) (xs := ys) (fun y hy => by
    obtain ⟨z, _, hz⟩ := mapPy_mem h (hm y hy)
    exact ⟨z, hz⟩)
  refine ⟨ws, h1, fun w hw => ?_⟩
  obtain ⟨y, hy, e⟩ := mapPy_mem' h1 hw
  obtain ⟨z, hz, e'⟩ := mapPy_mem h (hm y hy)
  rw [e] at e'
  cases e'
  exact hz

theorem sorted_dedup_eq {l l' : List Outcome} (h : ∀ x, x ∈ l' ↔ x ∈ l) :
    l'.dedup.insertionSort (· ≤ ·) = l.dedup.insertionSort (· ≤ ·) := by
  have hp : (l'.dedup).Perm l.dedup :=
    (List.perm_ext_iff_of_nodup (List.nodup_dedup _) (List.nodup_dedup _)).2 (fun x => by
      rw [List.mem_dedup, List.mem_dedup, h])
  exact List.Perm.eq_of_pairwise (le := (· ≤ ·)) (fun a b _ _ h1 h2 => le_antisymm h1 h2)
    (List.pairwise_insertionSort _ _) (List.pairwise_insertionSort _ _)
    (((List.perm_insertionSort _ _).trans hp).trans (List.perm_insertionSort _ _).symm)

/-- Listing the parents in another order, and their outcomes in another order, gives a CPD with the
same domain and the same probabilities. -/
theorem mkCpd_reorder {kind : CpdKind} {v : Node} {f : Func} {force : Option (List Outcome)}
    {ps ps' : List Node} {dom dom' : Dict Node (List Outcome)} {card card' : Node → Py Nat} {c : Cpd}
    (hn : ps.Nodup) (hp : ps'.Perm ps) (h : mkCpd kind v f force ps dom card = .ok c)
    (hd : ∀ p ∈ ps, ∀ d, dom.get? p = some d → ∃ d', dom'.get? p = some d' ∧ d'.Perm d)
    (hcard : ∀ p ∈ ps, card' p = card p) :
    ∃ c', mkCpd kind v f force ps' dom' card' = .ok c' ∧ c'.domain = c.domain ∧
      ∀ a, InDoms dom ps a → ∀ x, c'.prob dom' (c'.evidence.map a) x = c.prob dom (c.evidence.map a) x := by
  obtain ⟨ds, possible, domain, cards, cols, h1, h2, h3, h4, h5, h6, h7, h8, h9, hc⟩ := mkCpd_ok_iff.1 h
  have hn' : ps'.Nodup := hp.nodup_iff.2 hn
  have hm : ∀ p, p ∈ ps' ↔ p ∈ ps := fun p => hp.mem_iff
  have hsome : ∀ p ∈ ps, ∃ d d', dom.get? p = some d ∧ dom'.get? p = some d' ∧ d'.Perm d := by
    intro p hpm
    obtain ⟨d, _, hdd⟩ := mapPy_mem h1 hpm
    obtain ⟨d', k1, k2⟩ := hd p hpm d (domOf_ok.1 hdd)
    exact ⟨d, d', domOf_ok.1 hdd, k1, k2⟩
  have hdoms : ∀ a, InDoms dom' ps' a ↔ InDoms dom ps a := by
    intro a
    constructor
    · intro ha p hpm
      obtain ⟨d, d', e1, e2, e3⟩ := hsome p hpm
      obtain ⟨d'', k1, k2⟩ := ha p ((hm p).2 hpm)
      rw [e2] at k1
      cases k1
      exact ⟨d, e1, e3.mem_iff.1 k2⟩
    · intro ha p hpm
      obtain ⟨d, d', e1, e2, e3⟩ := hsome p ((hm p).1 hpm)
      obtain ⟨d'', k1, k2⟩ := ha p ((hm p).1 hpm)
      rw [e1] at k1
      cases k1
      exact ⟨d', e2, e3.mem_iff.2 k2⟩
  obtain ⟨ds', h1', _⟩ := mapPy_ok (f := domOf dom') (xs := ps') (fun p hpm => by
    obtain ⟨d, d', e1, e2, e3⟩ := hsome p ((hm p).1 hpm)
    exact ⟨d', domOf_ok.2 e2⟩)
  have h1'' : parentDoms ps' dom' = .ok ds' := h1'
  have hpv : ∀ pv, pv ∈ (product ds').map (pvOf ps') ↔ pv ∈ (product ds).map (pvOf ps) := by
    intro pv
    rw [mem_pvs hn' h1'', mem_pvs hn h1]
    constructor
    · rintro ⟨a, ha, rfl⟩
      exact ⟨a, (hdoms a).1 ha, restrict_perm hm a⟩
    · rintro ⟨a, ha, rfl⟩
      exact ⟨a, (hdoms a).2 ha, (restrict_perm hm a).symm⟩
  have h2' : possibleValues f ((product ds').map (pvOf ps')) = .ok possible := by
    unfold possibleValues at h2 ⊢
    cases hmp : mapPy (stochasticFunction f) ((product ds).map (pvOf ps)) with
    | error e => rw [hmp] at h2; simp at h2
    | ok zs =>
      rw [hmp] at h2
      simp only [Except.ok.injEq] at h2
      obtain ⟨ws, hw1, hw2⟩ := mapPy_ok_of_mem hmp (fun y hy => (hpv y).1 hy)
      obtain ⟨zs', hz1, hz2⟩ := mapPy_ok_of_mem hw1 (fun y hy => (hpv y).2 hy)
      rw [hmp] at hz1
      cases hz1
      rw [hw1]
      simp only [Except.ok.injEq]
      rw [← h2]
      apply sorted_dedup_eq
      intro x
      simp only [List.mem_flatMap]
      constructor
      · rintro ⟨d, hd, hx⟩; exact ⟨d, hw2 d hd, hx⟩
      · rintro ⟨d, hd, hx⟩; exact ⟨d, hz2 d hd, hx⟩
  have h4a : mapPy card' ps = .ok cards := by rw [← h4]; exact mapPy_congr hcard
  obtain ⟨cards', h4', _⟩ := mapPy_ok_of_mem h4a (fun y hy => (hm y).1 hy)
  have hcards : cards'.prod = cards.prod := by
    have e1 := mapPy_eq_map 0 h4a
    have e2 := mapPy_eq_map 0 h4'
    rw [e1, e2]
    exact (hp.map _).prod_eq
  have hlen : ∀ {qs : List Node} {es cs} {dom : Dict Node (List Outcome)}, parentDoms qs dom = .ok es →
      mapPy (colFor f domain) ((product es).map (pvOf qs)) = .ok cs →
      cs.length = (qs.map (fun p => ((dom.get? p).getD []).length)).prod := by
    intro qs es cs dom hq hcs
    rw [parentDoms_ok] at hq
    have e1 := mapPy_eq_map [] hcs
    rw [e1]
    simp only [List.length_map, length_product]
    rw [forall₂_doms hq, List.map_map]
    rfl
  obtain ⟨cols', h5', hcm⟩ := mapPy_ok_of_mem h5 (fun y hy => (hpv y).1 hy)
  have hall : ∀ (q : List Rat → Bool), cols.all q = true → cols'.all q = true := by
    intro q hq
    rw [List.all_eq_true] at hq ⊢
    exact fun x hx => hq x (hcm x hx)
  have hmk : mkCpd kind v f force ps' dom' card' = .ok ⟨v, domain, ps', cards', cols', kind, f, force⟩ := by
    refine mkCpd_ok_iff.2 ⟨ds', possible, domain, cards', cols', h1'', h2', h3, h4', h5', hall _ h6, hall _ h7, ?_, h9, rfl⟩
    rw [hcards, ← h8, hlen h1'' h5', hlen h1 h5]
    rw [(hp.map _).prod_eq]
    congr 1
    apply List.map_congr_left
    intro p hpm
    obtain ⟨d, d', e1, e2, e3⟩ := hsome p hpm
    simp [e1, e2, e3.length_eq]
  refine ⟨_, hmk, by rw [hc], fun a ha x => ?_⟩
  obtain ⟨col', e1, _, _, e2⟩ := mkCpd_assign hmk (a := a) ((hdoms a).2 ha)
  obtain ⟨col, e3, _, _, e4⟩ := mkCpd_assign h ha
  rw [e2, e4]
  subst hc
  rw [restrict_perm hm, e3] at e1
  cases e1
  rfl

theorem mkCpd_perm {kind : CpdKind} {v : Node} {f : Func} {force : Option (List Outcome)}
    {ps ps' : List Node} {dom : Dict Node (List Outcome)} {card : Node → Py Nat} {c : Cpd}
    (hn : ps.Nodup) (hp : ps'.Perm ps) (h : mkCpd kind v f force ps dom card = .ok c) :
    ∃ c', mkCpd kind v f force ps' dom card = .ok c' ∧ c'.domain = c.domain ∧
      ∀ a, InDoms dom ps a → ∀ x, c'.prob dom (c'.evidence.map a) x = c.prob dom (c.evidence.map a) x :=
  mkCpd_reorder hn hp h (fun _ _ d hd => ⟨d, hd, .refl _⟩) (fun _ _ => rfl)

theorem column_length {domain : List Outcome} {d : Dict Outcome (Option Rat)} {col : List Rat}
    (h : column domain d = .ok col) : col.length = domain.length := by
  unfold column at h
  rw [mapPy_eq_map 0 h, List.length_map]

theorem colFor_length {f : Func} {domain : List Outcome} {pv : PV} {col : List Rat}
    (h : colFor f domain pv = .ok col) : col.length = domain.length := by
  unfold colFor at h
  split at h
  · simp at h
  · exact column_length h

theorem mkCpd_wf {kind : CpdKind} {v : Node} {f : Func} {force : Option (List Outcome)}
    {ps : List Node} {dom : Dict Node (List Outcome)} {card : Node → Py Nat} {c : Cpd}
    (h : mkCpd kind v f force ps dom card = .ok c) (hn : ps.Nodup) (hne : c.domain ≠ []) : c.WellFormed := by
  obtain ⟨ds, possible, domain, cards, cols, h1, h2, h3, h4, h5, h6, h7, h8, h9, rfl⟩ := mkCpd_ok_iff.1 h
  refine ⟨h9, hne, hn, h8, fun col hcol => ?_⟩
  obtain ⟨pv, _, e⟩ := mapPy_mem' h5 hcol
  exact colFor_length e

/-- a constructed CPD fits -/
theorem mkCpd_fits {kind : CpdKind} {v : Node} {f : Func} {force : Option (List Outcome)}
    {g : Graph} {dom : Dict Node (List Outcome)} {c : Cpd}
    (h : mkCpd kind v f force (g.parents v) dom (cardOf dom) = .ok c) : c.Fits g dom v := by
  obtain ⟨ds, possible, domain, cards, cols, h1, h2, h3, h4, h5, h6, h7, h8, h9, rfl⟩ := mkCpd_ok_iff.1 h
  refine ⟨rfl, fun p => Graph.mem_parents, ?_, h6⟩
  simp only
  clear h1 h2 h3 h5 h6 h7 h8 h9 h
  generalize g.parents v = ps at h4
  induction ps generalizing cards with
  | nil => simp only [mapPy, Except.ok.injEq] at h4; subst h4; rfl
  | cons p ps ih =>
    simp only [mapPy] at h4
    cases hc : cardOf dom p with
    | error e => rw [hc] at h4; simp at h4
    | ok n =>
      rw [hc] at h4
      cases hm : mapPy (cardOf dom) ps with
      | error e => rw [hm] at h4; simp at h4
      | ok ns =>
        rw [hm] at h4
        simp only [Except.ok.injEq] at h4
        subst h4
        rw [List.map_cons, ← ih ns hm]
        congr 1
        unfold cardOf at hc
        cases hd : dom.get? p with
        | none => rw [hd] at hc; simp at hc
        | some d => rw [hd] at hc; simp only [Except.ok.injEq] at hc; simp [← hc]

/-- a constructed CPD has outcomes as soon as the parents have -/
theorem mkCpd_nonempty {kind : CpdKind} {v : Node} {f : Func} {force : Option (List Outcome)}
    {ps : List Node} {dom : Dict Node (List Outcome)} {card : Node → Py Nat} {c : Cpd}
    (h : mkCpd kind v f force ps dom card = .ok c) (hp : ∀ p ∈ ps, ∃ d, dom.get? p = some d ∧ d ≠ []) :
    c.domain ≠ [] := by
  have ha : InDoms dom ps (fun p => ((dom.get? p).getD []).headD 0) := by
    intro p hpm
    obtain ⟨d, h1, h2⟩ := hp p hpm
    refine ⟨d, h1, ?_⟩
    simp only [h1, Option.getD_some]
    cases d with
    | nil => exact absurd rfl h2
    | cons x xs => simp
  obtain ⟨col, h1, h2, _⟩ := mkCpd_assign h ha
  intro he
  have hl := colFor_length h1
  rw [he] at hl
  have hnil : col = [] := List.length_eq_zero_iff.1 (by simpa using hl)
  obtain ⟨ds, possible, domain, cards, cols, _, _, _, _, _, h6, _, _, _, rfl⟩ := mkCpd_ok_iff.1 h
  rw [List.all_eq_true] at h6
  have := h6 col h2
  rw [hnil] at this
  revert this
  decide +kernel

theorem mkCpd_kind {kind kind' : CpdKind} {v : Node} {f : Func} {force : Option (List Outcome)}
    {ps : List Node} {dom : Dict Node (List Outcome)} {card : Node → Py Nat} {c : Cpd}
    (h : mkCpd kind v f force ps dom card = .ok c) :
    mkCpd kind' v f force ps dom card = .ok { c with kind := kind' } := by
  obtain ⟨ds, possible, domain, cards, cols, h1, h2, h3, h4, h5, h6, h7, h8, h9, rfl⟩ := mkCpd_ok_iff.1 h
  exact mkCpd_ok_iff.2 ⟨ds, possible, domain, cards, cols, h1, h2, h3, h4, h5, h6, h7, h8, h9, rfl⟩

end Verif

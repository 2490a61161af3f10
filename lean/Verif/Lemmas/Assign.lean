import Verif.Lemmas.Expect
import Verif.Spec.Policy
import Verif.Props.Cpd

/-!
# Replacing decision rules
-/

namespace Verif

open Graph

theorem Dict.set_same {K V : Type} [DecidableEq K] {d : Dict K V} {k : K} {v : V} (h : d.get? k = some v) : d.set k v = d := by
  induction d with
  | nil => simp [Dict.get?] at h
  | cons p d ih =>
    obtain ⟨k', v'⟩ := p
    simp only [Dict.get?] at h
    simp only [Dict.set]
    split
    · rename_i hk
      simp only [hk, if_true, Option.some.injEq] at h
      rw [h]
    · rename_i hk
      rw [if_neg hk] at h
      rw [ih h]

/-- a rule given by distributions over the domain -/
theorem mkCpd_dist {kind : CpdKind} {v : Node} {f : Func} {domain : List Outcome}
    {ps : List Node} {dom : Dict Node (List Outcome)} {card : Node → Py Nat}
    {δ : List Outcome → Outcome → Rat} (hd : domain.Nodup) (hne : domain ≠ [])
    (hdom : ∀ p ∈ ps, ∃ d, dom.get? p = some d ∧ card p = .ok d.length)
    (hf : ∀ vals, Instantiation ps dom vals → ∃ d, f (pvOf ps vals) = .ok (.dist d) ∧ d.keys.Nodup ∧ (∀ x ∈ d.keys, x ∈ domain) ∧
      ∀ x ∈ domain, (given d x).getD ((1 - givenMass d) / (unspecified domain d).length) = δ vals x)
    (h0 : ∀ vals, Instantiation ps dom vals → ∀ x ∈ domain, 0 ≤ δ vals x)
    (h1 : ∀ vals, Instantiation ps dom vals → (domain.map (δ vals)).sum = 1) :
    ∃ c, mkCpd kind v f (some domain) ps dom card = .ok c ∧ c.domain = domain ∧
      ∀ vals, Instantiation ps dom vals → ∀ x ∈ domain, c.prob dom vals x = some (δ vals x) := by
  obtain ⟨ds, hds⟩ : ∃ ds, parentDoms ps dom = .ok ds := by
    obtain ⟨ds, h, _⟩ := mapPy_ok (f := domOf dom) (xs := ps) (by
      intro p hp
      obtain ⟨d, h, _⟩ := hdom p hp
      exact ⟨d, domOf_ok.2 h⟩)
    exact ⟨ds, h⟩
  have hds' := parentDoms_ok.1 hds
  have hf' : ∀ vals : List Outcome, ∃ d : Dict Outcome (Option Rat), vals ∈ product ds → f (pvOf ps vals) = .ok (.dist d) ∧
      d.keys.Nodup ∧ (∀ x ∈ d.keys, x ∈ domain) ∧
      ∀ x ∈ domain, (given d x).getD ((1 - givenMass d) / (unspecified domain d).length) = δ vals x := by
    intro vals
    by_cases h : vals ∈ product ds
    · obtain ⟨d, hd⟩ := hf vals ((inst_iff hds').1 h)
      exact ⟨d, fun _ => hd⟩
    · exact ⟨[], fun h' => absurd h' h⟩
  choose D hD using hf'
  have hsf : ∀ vals ∈ product ds, stochasticFunction f (pvOf ps vals) = .ok (D vals) := by
    intro vals hv
    simp [stochasticFunction, (hD vals hv).1]
  have hpos : possibleValues f ((product ds).map (pvOf ps)) =
      .ok (((product ds).flatMap (fun vals => (D vals).keys)).dedup.insertionSort (· ≤ ·)) := by
    unfold possibleValues
    have : mapPy (stochasticFunction f) ((product ds).map (pvOf ps)) = .ok ((product ds).map D) := by
      rw [mapPy_ok_iff, List.forall₂_map_left_iff, List.forall₂_map_right_iff]
      exact List.forall₂_same.2 hsf
    rw [this]
    simp [List.flatMap_map]
  have hch : chooseDomain (some domain) (((product ds).flatMap (fun vals => (D vals).keys)).dedup.insertionSort (· ≤ ·)) =
      .ok domain := by
    cases domain with
    | nil => exact absurd rfl hne
    | cons a l =>
      simp only [chooseDomain, truthy]
      rw [if_pos]
      rw [List.all_eq_true]
      intro x hx
      rw [List.mem_insertionSort, List.mem_dedup, List.mem_flatMap] at hx
      obtain ⟨vals, hv, hx⟩ := hx
      simpa using (hD vals hv).2.2.1 x hx
  have hcard : mapPy card ps = .ok (ds.map List.length) := by
    rw [mapPy_ok_iff, List.forall₂_map_right_iff]
    rw [List.forall₂_iff_get] at hds' ⊢
    refine ⟨hds'.1, fun i h1 h2 => ?_⟩
    obtain ⟨d, e1, e2⟩ := hdom (ps.get ⟨i, h1⟩) (List.get_mem _ _)
    have := hds'.2 i h1 h2
    rw [e1] at this
    cases this
    exact e2
  have hcols : mapPy (colFor f domain) ((product ds).map (pvOf ps)) =
      .ok ((product ds).map (fun vals => domain.map (δ vals))) := by
    rw [mapPy_ok_iff, List.forall₂_map_left_iff, List.forall₂_map_right_iff]
    apply List.forall₂_same.2
    intro vals hv
    simp only [colFor, hsf vals hv]
    rw [column_ok (hD vals hv).2.1 hd]
    congr 1
    exact List.map_congr_left (hD vals hv).2.2.2
  refine ⟨_, mkCpd_ok_iff.2 ⟨ds, _, domain, _, _, hds, hpos, hch, hcard, hcols, ?_, ?_, ?_, hd, rfl⟩, rfl, ?_⟩
  · rw [List.all_eq_true]
    intro col hc
    obtain ⟨vals, hv, rfl⟩ := List.mem_map.1 hc
    simp only [colClose, h1 vals ((inst_iff hds').1 hv)]
    norm_num
  · rw [List.all_eq_true]
    intro col hc
    obtain ⟨vals, hv, rfl⟩ := List.mem_map.1 hc
    have hi := (inst_iff hds').1 hv
    simp only [colRange, List.all_map, List.all_eq_true]
    intro x hx
    simp only [Function.comp, decide_eq_true_eq]
    refine ⟨h0 vals hi x hx, ?_⟩
    rw [← h1 vals hi]
    apply List.single_le_sum _ _ (List.mem_map_of_mem hx)
    intro y hy
    obtain ⟨z, hz, rfl⟩ := List.mem_map.1 hy
    exact h0 vals hi z hz
  · rw [List.length_map, length_product]
  · intro vals hv x hx
    unfold Cpd.prob Cpd.entry Cpd.col
    simp only
    rw [← forall₂_doms hds', get?_zip_map ((inst_iff hds').2 hv)]
    simp only [Option.bind_some]
    exact get?_zip_map hx

namespace Net

namespace OnlyRules

theorem rfl' (net : Net) (ds : List Node) : OnlyRules net ds net := ⟨rfl, rfl, rfl, fun _ _ => rfl, fun _ _ => rfl⟩

theorem trans {n1 n2 n3 : Net} {ds es fs : List Node} (h1 : OnlyRules n1 ds n2) (h2 : OnlyRules n2 es n3)
    (hd : ∀ w ∈ ds, w ∈ fs) (he : ∀ w ∈ es, w ∈ fs) : OnlyRules n1 fs n3 := by
  refine ⟨h2.m.trans h1.m, h2.base.trans h1.base, h2.domain.trans h1.domain, fun w hw => ?_, fun w hw => ?_⟩
  · rw [h2.cpds w (fun h => hw (he w h)), h1.cpds w (fun h => hw (hd w h))]
  · rw [h2.rels w (fun h => hw (he w h)), h1.rels w (fun h => hw (hd w h))]

theorem mono {n1 n2 : Net} {ds fs : List Node} (h : OnlyRules n1 ds n2) (hd : ∀ w ∈ ds, w ∈ fs) : OnlyRules n1 fs n2 :=
  h.trans (rfl' _ ds) hd hd

theorem g {n1 n2 : Net} {ds : List Node} (h : OnlyRules n1 ds n2) : n2.g = n1.g := congrArg Macid.g h.m
theorem dom {n1 n2 : Net} {ds : List Node} (h : OnlyRules n1 ds n2) : n2.dom = n1.dom := by
  funext v; unfold Net.dom; rw [h.domain]
theorem inDom {n1 n2 : Net} {ds : List Node} (h : OnlyRules n1 ds n2) (a : Assign) : n2.InDom a ↔ n1.InDom a := by
  unfold InDom; rw [h.g, h.dom]
theorem kernel {n1 n2 : Net} {ds : List Node} (h : OnlyRules n1 ds n2) {w : Node} (hw : w ∉ ds) (a : Assign) :
    n2.kernel w a = n1.kernel w a := by
  unfold Net.kernel
  rw [h.cpds w hw, h.domain]
theorem undecided {n1 n2 : Net} {ds : List Node} (h : OnlyRules n1 ds n2) {w : Node} (hw : w ∉ ds) :
    n2.undecided w = n1.undecided w := by
  unfold Net.undecided
  rw [h.cpds w hw]

end OnlyRules

theorem cardOf_stage {net : Net} (hG : Good net) {v : Node} {r : Rel} {p : Node} (hp : net.g.Edge p v) :
    (stage net v r).card p = cardOf net.domain p := by
  have hpn := (hG.wf.edgeNodes p v hp).1
  have hne : p ≠ v := fun e => hG.wf.acyclic v (.single (e ▸ hp))
  rw [← card_eq_cardOf hG hpn]
  unfold card getCpd
  have : (stage net v r).cpds.get? p = net.cpds.get? p := by rw [stage_cpds, if_neg hne]
  rw [this]
  rfl

/-- giving a node a relationship with the same domain changes nothing else -/
theorem set_rule {net : Net} (hG : Good net) {v : Node} (hv : v ∈ net.g.nodes) {r : Rel} {c : Cpd}
    (hr : computed net.g net.domain v r = .ok c) (hd : c.domain = net.dom v)
    (hf : c.Fits net.g net.domain v) (hw : c.WellFormed)
    (ht : ∀ c1, r = .tab c1 → c1.kind ≠ .tabular →
      ∃ c', mkCpd c1.kind c1.var c1.func c1.force (net.g.parents v) net.domain (cardOf net.domain) = .ok c' ∧ net.SameCpd c1 c') :
    ∃ net', net.set v r = (net', .ok ()) ∧ Good net' ∧ OnlyRules net [v] net' ∧ net'.cpds.get? v = some c ∧
      net'.rels.get? v = some r := by
  obtain ⟨c0, hc0, hd0⟩ := hG.complete v hv
  have hdv : net.domain.get? v = some c.domain := by rw [hd, dom_eq hd0, hd0]
  have hto : (stage net v r).toCpd v r = .ok c := by
    have hcong : ∀ kind f force, mkCpd kind v f force ((stage net v r).g.parents v) (stage net v r).domain (stage net v r).card =
        mkCpd kind v f force (net.g.parents v) net.domain (cardOf net.domain) := by
      intro kind f force
      exact mkCpd_congr (fun _ _ => rfl) (fun p hp => cardOf_stage hG (Graph.mem_parents.1 hp))
    have hv' : v ∈ (stage net v r).g.nodes := hv
    cases r with
    | tab c1 => exact hr
    | func f => unfold toCpd; simp only [hv', if_true]; rw [hcong]; exact hr
    | dist f => unfold toCpd; simp only [hv', if_true]; rw [hcong]; exact hr
    | seq f => unfold toCpd; simp only [hv', if_true]; rw [hcong]; exact hr
  have hset : net.set v r = (put net v r c, .ok ()) := by
    unfold set
    rcases setItem_cases net.g.nodes.length net v r with ⟨h1, _⟩ | ⟨e, _, h1, _⟩ | ⟨c', h1, h2⟩
    · rw [hto] at h1; simp at h1
    · rw [hto] at h1; simp at h1
    · rw [hto] at h1
      cases h1
      have hall : ∀ x ∈ c.var :: c.evidence, x ∈ net.g.nodes := by
        intro x hx
        rcases List.mem_cons.1 hx with rfl | hx
        · rw [hf.var]; exact hv
        · exact (hG.wf.edgeNodes x v ((hf.parents x).1 hx)).1
      rcases h2 with ⟨h, _⟩ | ⟨_, h, _⟩ | ⟨_, _, _, _, h⟩ | ⟨_, _, h, _⟩
      · exact absurd hall h
      · exact absurd hf.var h
      · exact h
      · exact absurd ⟨hw.nonempty, hdv⟩ h
  have hdom : (put net v r c).domain = net.domain := Dict.set_same hdv
  have hO : OnlyRules net [v] (put net v r c) := by
    refine ⟨rfl, rfl, hdom, fun w hw => ?_, fun w hw => ?_⟩
    · rw [put_cpds, if_neg (by simpa using hw)]
    · rw [put_rels, if_neg (by simpa using hw)]
  refine ⟨_, hset, ?_, hO, by rw [put_cpds]; simp, by rw [put_rels]; simp⟩
  have hcase : ∀ w c', (put net v r c).cpds.get? w = some c' → (w = v ∧ c' = c) ∨ (w ≠ v ∧ net.cpds.get? w = some c') := by
    intro w c' h
    rw [put_cpds] at h
    split at h
    · rename_i e; left; exact ⟨e, by simpa using h.symm⟩
    · rename_i e; right; exact ⟨e, h⟩
  refine ⟨hG.wf, nodup_stage hG.keys, fun w hw => ?_, fun w c' h => ?_, fun w hw => ?_, fun w c' h => ?_, fun w c' h => ?_,
    fun w c' h hk => ?_⟩
  · obtain ⟨x, hx⟩ := Dict.mem_keys.1 hw
    rw [put_rels] at hx
    split at hx
    · rename_i e; exact e ▸ hv
    · exact hG.relNodes w (Dict.mem_keys.2 ⟨x, hx⟩)
  · rw [hdom, put_rels]
    rcases hcase w c' h with ⟨rfl, rfl⟩ | ⟨hne, h⟩
    · exact ⟨hdv, r, by simp, hr⟩
    · rw [if_neg hne]
      exact hG.reflects w c' h
  · rw [hdom, put_cpds]
    by_cases e : w = v
    · subst e; exact ⟨c, by simp, hdv⟩
    · rw [if_neg e]; exact hG.complete w hw
  · rw [hdom]
    rcases hcase w c' h with ⟨rfl, rfl⟩ | ⟨hne, h⟩
    · exact hf
    · exact hG.fits w c' h
  · rcases hcase w c' h with ⟨rfl, rfl⟩ | ⟨hne, h⟩
    · exact hw
    · exact hG.cpdOk w c' h
  · rw [put_rels] at h
    have hs : ∀ c1 c2, net.SameCpd c1 c2 → (put net v r c).SameCpd c1 c2 := by
      intro c1 c2 h12
      refine ⟨h12.1, fun a ha x => ?_⟩
      rw [hdom]
      exact h12.2 a ((hO.inDom a).1 ha) x
    rw [hdom]
    split at h
    · rename_i e
      subst e
      obtain ⟨c2, h1, h2⟩ := ht c' (by simpa using h) hk
      exact ⟨c2, h1, hs _ _ h2⟩
    · obtain ⟨c2, h1, h2⟩ := hG.tabs w c' h hk
      exact ⟨c2, h1, hs _ _ h2⟩

/-- a rule object made for the network and stored in it -/
theorem set_newRule {net : Net} (hG : Good net) {v : Node} (hv : v ∈ net.g.nodes) {c : Cpd} {kind : CpdKind} {f : Func}
    {force : Option (List Outcome)}
    (h : mkCpd kind v f force (net.g.parents v) net.domain (cardOf net.domain) = .ok c) (hd : c.domain = net.dom v) :
    ∃ net', net.set v (.tab c) = (net', .ok ()) ∧ Good net' ∧ OnlyRules net [v] net' ∧ net'.cpds.get? v = some c ∧
      net'.rels.get? v = some (.tab c) := by
  obtain ⟨f1, f2, f3, f4, f5, f6⟩ := mkCpd_fields h
  refine set_rule hG hv rfl hd (mkCpd_fits h)
    (mkCpd_wf h (Graph.nodup_parents hG.wf.edgesNodup v) (hd ▸ (dom_props hG hv).2)) ?_
  intro c1 hc1 _
  cases hc1
  rw [f1, f3, f4, f5]
  exact ⟨c, h, rfl, fun _ _ _ => rfl⟩

theorem newRule_eq {net : Net} (hG : Good net) {v : Node} (hv : v ∈ net.g.nodes) (f : Func) (dom : List Outcome) :
    net.newRule v f dom = mkCpd .stochastic v f (some dom) (net.g.parents v) net.domain (cardOf net.domain) := by
  unfold newRule
  rw [if_pos hv]
  exact mkCpd_congr (fun _ _ => rfl) (fun p hp => card_eq_cardOf hG (hG.wf.edgeNodes p v (Graph.mem_parents.1 hp)).1)

/-! ### normalised tables -/

/-- replacing one CPD by a normalised one -/
theorem OnlyRules.normalised {net net' : Net} {ds : List Node} (h : OnlyRules net ds net') (hN : net.Normalised)
    (hd : ∀ d ∈ ds, d ∈ net.g.nodes → ∀ a, net.InDom a → 0 ≤ net'.kernel d a ∧
      ((net.dom d).map (fun x => net'.kernel d (Assign.upd a d x))).sum = 1) : net'.Normalised := by
  intro v hv a ha
  rw [h.g] at hv
  rw [h.inDom] at ha
  rw [h.dom]
  by_cases hvd : v ∈ ds
  · exact hd v hvd hv a ha
  · rw [h.kernel hvd]
    simp only [h.kernel hvd]
    exact hN v hv a ha

theorem OnlyRules.staffed {net net' : Net} {ds : List Node} (h : OnlyRules net ds net') (hS : net.Staffed) : net'.Staffed := by
  refine ⟨?_, ?_⟩
  · rw [h.m]; exact hS.both
  · rw [h.m, h.base]; exact hS.owns

theorem OnlyRules.usable {net net' : Net} {ds : List Node} (h : OnlyRules net ds net') (hU : net.Usable) (hG : Good net')
    (hN : net'.Normalised) : net'.Usable :=
  ⟨hG, hN, h.m ▸ hU.roles, h.base ▸ hU.base, h.staffed hU.staffed⟩

/-- evidence of an assignment is an instantiation of the parents -/
theorem inst_of_inDom {net : Net} (hG : Good net) {a : Assign} (ha : net.InDom a) (v : Node) :
    Instantiation (net.g.parents v) net.domain ((net.g.parents v).map a) := by
  unfold Instantiation
  rw [List.forall₂_map_right_iff, List.forall₂_same]
  intro p hp
  have hpn := (hG.wf.edgeNodes p v (Graph.mem_parents.1 hp)).1
  obtain ⟨c, _, h2⟩ := hG.complete p hpn
  exact ⟨c.domain, h2, by rw [← dom_eq h2]; exact ha p hpn⟩

/-- the kernel of a stored rule object -/
theorem kernel_rule {net net' : Net} {ds : List Node} (hO : OnlyRules net ds net') {v : Node} {c : Cpd}
    (hc : net'.cpds.get? v = some c) {kind : CpdKind} {f : Func} {force : Option (List Outcome)}
    (h : mkCpd kind v f force (net.g.parents v) net.domain (cardOf net.domain) = .ok c) (a : Assign) :
    net'.kernel v a = (c.prob net.domain ((net.g.parents v).map a) (a v)).getD 0 := by
  unfold kernel
  rw [hc, hO.domain]
  simp only
  rw [(mkCpd_fields h).2.1]

/-! ### random rules and bare domains -/

theorem parents_dom {net : Net} (hG : Good net) (v : Node) :
    ∀ p ∈ net.g.parents v, ∃ d, net.domain.get? p = some d ∧ cardOf net.domain p = .ok d.length := by
  intro p hp
  obtain ⟨c, _, h⟩ := hG.complete p (hG.wf.edgeNodes p v (Graph.mem_parents.1 hp)).1
  exact ⟨c.domain, h, by simp [cardOf, h]⟩

theorem sum_uniform {l : List Outcome} (hne : l ≠ []) : (l.map (fun _ => 1 / (l.length : Rat))).sum = 1 := by
  have : (l.length : Rat) ≠ 0 := by
    have := List.length_pos_iff.2 hne
    positivity
  simp [this]

theorem imputeRandom_spec {net : Net} (hG : Good net) {d : Node} (hd : d ∈ net.g.nodes) :
    ∃ net' c, net.imputeRandom d = (net', .ok ()) ∧ Good net' ∧ OnlyRules net [d] net' ∧ net'.cpds.get? d = some c ∧
      c.kind = .stochastic ∧ ∀ a, net.InDom a → net'.kernel d a = 1 / ((net.dom d).length : Rat) := by
  obtain ⟨c0, hc0, hd0⟩ := hG.complete d hd
  have hdom := dom_eq hd0
  obtain ⟨hn, hne⟩ := dom_props hG hd
  obtain ⟨u1, u2, u3, u4⟩ := C26_discrete_uniform hn hne
  obtain ⟨c, h1, h2, h3⟩ := mkCpd_dist (kind := .stochastic) (v := d) (f := randomFunc (net.dom d)) (domain := net.dom d)
    (ps := net.g.parents d) (dom := net.domain) (card := cardOf net.domain) (δ := fun _ _ => 1 / ((net.dom d).length : Rat))
    hn hne (parents_dom hG d) (fun vals _ => ⟨discreteUniform (net.dom d), rfl, u1, fun x hx => (u2 x).1 hx,
      fun x hx => by rw [u3 x hx]; rfl⟩) (fun _ _ _ _ => by positivity) (fun _ _ => sum_uniform hne)
  obtain ⟨net', k1, k2, k3, k4, k5⟩ := set_newRule hG hd h1 h2
  refine ⟨net', c, ?_, k2, k3, k4, (mkCpd_fields h1).2.2.1, fun a ha => ?_⟩
  · unfold imputeRandom
    rw [hd0]
    simp only
    rw [← hdom, newRule_eq hG hd, h1]
    exact k1
  · rw [kernel_rule k3 k4 h1, h3 _ (inst_of_inDom hG ha d) _ (ha d hd)]
    rfl

theorem imputeRandom_usable {net : Net} (hU : net.Usable) {d : Node} (hd : d ∈ net.g.nodes) :
    ∃ net' c, net.imputeRandom d = (net', .ok ()) ∧ net'.Usable ∧ OnlyRules net [d] net' ∧ net'.cpds.get? d = some c ∧
      c.kind = .stochastic ∧ ∀ a, net.InDom a → net'.kernel d a = 1 / ((net.dom d).length : Rat) := by
  obtain ⟨net', c, h1, h2, h3, h4, h5, h6⟩ := imputeRandom_spec hU.good hd
  refine ⟨net', c, h1, h3.usable hU h2 (h3.normalised hU.normalised ?_), h3, h4, h5, h6⟩
  intro e he hen a ha
  rw [List.mem_singleton] at he
  subst he
  refine ⟨by rw [h6 a ha]; positivity, ?_⟩
  rw [List.map_congr_left (fun x hx => h6 _ (inDom_upd ha hx)), sum_uniform (dom_props hU.good hd).2]

theorem removeRule_spec {net : Net} (hG : Good net) {d : Node} (hd : d ∈ net.g.nodes) :
    ∃ net' c, net.removeRule d = (net', .ok ()) ∧ Good net' ∧ OnlyRules net [d] net' ∧ net'.cpds.get? d = some c ∧
      c.kind = .decision ∧ net'.rels.get? d = some (.seq (net.dom d)) ∧
      ∀ a, net.InDom a → net'.kernel d a = 1 / ((net.dom d).length : Rat) := by
  obtain ⟨c0, hc0, hd0⟩ := hG.complete d hd
  have hdom := dom_eq hd0
  obtain ⟨hn, hne⟩ := dom_props hG hd
  obtain ⟨c, h1, h2, h3⟩ := mkCpd_dist (kind := .decision) (v := d) (f := constFunc []) (domain := net.dom d)
    (ps := net.g.parents d) (dom := net.domain) (card := cardOf net.domain) (δ := fun _ _ => 1 / ((net.dom d).length : Rat))
    hn hne (parents_dom hG d) (fun vals _ => ⟨[], rfl, by simp [Dict.keys], by simp [Dict.keys],
      fun x hx => by simp [given, Dict.get?, givenMass, unspecified]⟩) (fun _ _ _ _ => by positivity)
      (fun _ _ => sum_uniform hne)
  have hcomp : computed net.g net.domain d (.seq (net.dom d)) = .ok c := h1
  obtain ⟨net', k1, k2, k3, k4, k5⟩ := set_rule hG hd hcomp h2 (mkCpd_fits h1)
    (mkCpd_wf h1 (Graph.nodup_parents hG.wf.edgesNodup d) (h2 ▸ hne)) (fun c1 h => by simp at h)
  refine ⟨net', c, ?_, k2, k3, k4, (mkCpd_fields h1).2.2.1, k5, fun a ha => ?_⟩
  · unfold removeRule
    rw [hd0]
    simp only
    rw [← hdom]
    exact k1
  · rw [kernel_rule k3 k4 h1, h3 _ (inst_of_inDom hG ha d) _ (ha d hd)]
    rfl

theorem removeRule_usable {net : Net} (hU : net.Usable) {d : Node} (hd : d ∈ net.g.nodes) :
    ∃ net' c, net.removeRule d = (net', .ok ()) ∧ net'.Usable ∧ OnlyRules net [d] net' ∧ net'.cpds.get? d = some c ∧
      c.kind = .decision ∧ net'.rels.get? d = some (.seq (net.dom d)) ∧
      ∀ a, net.InDom a → net'.kernel d a = 1 / ((net.dom d).length : Rat) := by
  obtain ⟨net', c, h1, h2, h3, h4, h5, h5', h6⟩ := removeRule_spec hU.good hd
  refine ⟨net', c, h1, h3.usable hU h2 (h3.normalised hU.normalised ?_), h3, h4, h5, h5', h6⟩
  intro e he hen a ha
  rw [List.mem_singleton] at he
  subst he
  refine ⟨by rw [h6 a ha]; positivity, ?_⟩
  rw [List.map_congr_left (fun x hx => h6 _ (inDom_upd ha hx)), sum_uniform (dom_props hU.good hd).2]

/-- what a node looks like afterwards, kept by later steps -/
theorem forNet_usable {f : Net → Node → Net × Py Unit} {Q : Net → Node → Prop}
    (hf : ∀ net : Net, net.Usable → ∀ d ∈ net.g.nodes, ∃ net', f net d = (net', .ok ()) ∧ net'.Usable ∧ OnlyRules net [d] net' ∧ Q net' d)
    (hQ : ∀ net net' : Net, ∀ ds d, OnlyRules net ds net' → d ∉ ds → Q net d → Q net' d) :
    ∀ (ds : List Node) {net : Net}, net.Usable → (∀ d ∈ ds, d ∈ net.g.nodes) →
    ∃ net', forNet f net ds = (net', .ok ()) ∧ net'.Usable ∧ OnlyRules net ds net' ∧ ∀ d ∈ ds, Q net' d
  | [], net, hU, _ => ⟨net, rfl, hU, .rfl' _ _, by simp⟩
  | d :: ds, net, hU, hds => by
    obtain ⟨n1, h1, h2, h3, h4⟩ := hf net hU d (hds d (by simp))
    obtain ⟨n2, k1, k2, k3, k4⟩ := forNet_usable hf hQ ds h2 (fun e he => by rw [h3.g]; exact hds e (by simp [he]))
    refine ⟨n2, by simp only [forNet, h1]; exact k1, k2, h3.trans k3 (by simp) (fun w hw => by simp [hw]), ?_⟩
    intro e he
    by_cases hed : e ∈ ds
    · exact k4 e hed
    · rcases List.mem_cons.1 he with rfl | h
      · exact hQ n1 n2 ds e k3 hed h4
      · exact absurd h hed

end Net
end Verif

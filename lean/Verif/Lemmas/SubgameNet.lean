import Verif.Lemmas.Subgame
import Verif.Lemmas.Enumerate
import Verif.Lemmas.Runs

/-! The probabilities of subgames. -/

namespace Verif
open Relation Graph Macid

/-- the values of a table listed by its keys -/
theorem zip_values {α β : Type} [DecidableEq α] {ks : List α} {vs : List β} (hn : ks.Nodup) (hl : ks.length = vs.length) (d : β) :
    vs = ks.map (fun k => (Dict.get? (ks.zip vs) k).getD d) := by
  apply List.ext_getElem
  · simp [hl]
  · intro i h1 h2
    simp only [List.getElem_map]
    rw [get?_zip hn (by omega) h1]
    rfl

/-- summing over assignments is summing over combinations of values -/
theorem sumOver_product {dom : Node → List Outcome} : ∀ {ps : List Node} (_ : ps.Nodup) (F : List Outcome → Rat) (a : Assign),
    sumOver dom ps (fun b => F (ps.map b)) a = ((product (ps.map dom)).map F).sum
  | [], _, F, a => by simp [sumOver, product]
  | p :: ps, hn, F, a => by
    obtain ⟨h1, h2⟩ := List.nodup_cons.1 hn
    simp only [sumOver, List.map_cons, product, List.map_flatMap, List.map_map]
    rw [List.flatMap_def, List.sum_flatten, List.map_map]
    congr 1
    apply List.map_congr_left
    intro x hx
    have : sumOver dom ps (fun b => F (b p :: ps.map b)) (a.upd p x) = sumOver dom ps (fun b => F (x :: ps.map b)) (a.upd p x) := by
      have key : ∀ (qs : List Node) (b : Assign), p ∉ qs → b p = x →
          sumOver dom qs (fun b => F (b p :: ps.map b)) b = sumOver dom qs (fun b => F (x :: ps.map b)) b := by
        intro qs
        induction qs with
        | nil => intro b _ hb; simp [sumOver, hb]
        | cons q qs ih =>
          intro b hq hb
          rw [List.mem_cons, not_or] at hq
          simp only [sumOver]
          congr 1
          apply List.map_congr_left
          intro y _
          exact ih _ hq.2 (by rw [Assign.upd_ne b y hq.1]; exact hb)
      exact key ps _ h1 (by simp [Assign.upd])
    rw [this, sumOver_product h2 (fun vs => F (x :: vs))]
    rfl

namespace Net

/-- `averaged` in terms of entries -/
theorem averaged_eq {c : Cpd} (hw : c.WellFormed) {D : Dict Node (List Outcome)}
    (hcards : c.evCard = c.evidence.map (fun p => ((D.get? p).getD []).length))
    (hdn : ∀ p ∈ c.evidence, ((D.get? p).getD []).Nodup) :
    c.averaged = c.domain.map (fun x =>
      ((product (c.evidence.map (fun p => (D.get? p).getD []))).map (fun vals => (c.prob D vals x).getD 0)).sum /
      (c.domain.map (fun x => ((product (c.evidence.map (fun p => (D.get? p).getD []))).map (fun vals => (c.prob D vals x).getD 0)).sum)).sum) := by
  set doms := c.evidence.map (fun p => (D.get? p).getD []) with hdoms
  have hkn : (product doms).Nodup := nodup_product (by
    intro l hl
    obtain ⟨p, hp, rfl⟩ := List.mem_map.1 hl
    exact hdn p hp)
  have hlen : (product doms).length = c.table.length := by
    rw [_root_.Verif.length_product, hw.columns, hcards, hdoms, List.map_map]
    rfl
  have hsum : ∀ i (hi : i < c.domain.length), (c.table.map (fun col => col.getD i 0)).sum =
      ((product doms).map (fun vals => (c.prob D vals c.domain[i]).getD 0)).sum := by
    intro i hi
    have ht := zip_values hkn hlen ([] : List Rat)
    conv_lhs => rw [ht, List.map_map]
    congr 1
    apply List.map_congr_left
    intro vals hv
    simp only [Function.comp_apply]
    obtain ⟨j, hj, rfl⟩ := List.mem_iff_getElem.1 hv
    have hj' : j < c.table.length := hlen ▸ hj
    simp only [Cpd.prob, Cpd.entry, Cpd.col]
    rw [get?_zip hkn hj hj']
    simp only [Option.getD_some, Option.bind_some]
    have hcl := hw.column c.table[j] (List.getElem_mem _)
    rw [get?_zip hw.nodup hi (by omega)]
    simp [List.getD_eq_getElem?_getD, hcl, hi]
  have hsums : (List.range c.domain.length).map (fun i => (c.table.map (fun col => col.getD i 0)).sum) =
      c.domain.map (fun x => ((product doms).map (fun vals => (c.prob D vals x).getD 0)).sum) := by
    apply List.ext_getElem
    · simp
    · intro i h1 h2
      simp only [List.getElem_map, List.getElem_range]
      exact hsum i (by simpa using h1)
  unfold Cpd.averaged
  simp only [hsums, List.map_map]
  rfl

/-- a constant CPD over a sorted domain -/
theorem mkCpd_const {v : Node} {d : List Outcome} {w : Outcome → Rat} (hn : d.Nodup) (hs : d.Pairwise (· ≤ ·))
    (h0 : ∀ x ∈ d, 0 ≤ w x) (h1 : (d.map w).sum = 1) (dom : Dict Node (List Outcome)) (card : Node → Py Nat) :
    ∃ c, mkCpd .constant v (constFunc (d.map (fun x => (x, some (w x))))) none [] dom card = .ok c ∧
      c.domain = d ∧ c.var = v ∧ c.evidence = [] ∧ c.kind = .constant ∧
      ∀ dm, ∀ x ∈ d, c.prob dm [] x = some (w x) := by
  have hkeys : Dict.keys (d.map (fun x => (x, some (w x)))) = d := by simp [Dict.keys, Function.comp_def]
  have hposs : possibleValues (constFunc (d.map (fun x => (x, some (w x))))) ((product []).map (pvOf [])) = .ok d := by
    simp only [possibleValues, product, List.map_cons, List.map_nil, mapPy, stochasticFunction, constFunc,
      List.flatMap_cons, List.flatMap_nil, List.append_nil, Except.ok.injEq, hkeys]
    rw [hn.dedup]
    exact List.Pairwise.insertionSort_eq hs
  have hcol : column d (d.map (fun x => (x, some (w x)))) = .ok (d.map w) := by
    rw [column_ok (by rw [hkeys]; exact hn) hn]
    congr 1
    apply List.map_congr_left
    intro y hy
    simp only [given, get?_map_pair (h := fun x => some (w x)), hy, if_true, Option.join_some, Option.getD_some]
  have hmk : mkCpd .constant v (constFunc (d.map (fun x => (x, some (w x))))) none [] dom card =
      .ok ⟨v, d, [], [], [d.map w], .constant, constFunc (d.map (fun x => (x, some (w x)))), none⟩ := by
    refine mkCpd_ok_iff.2 ⟨[], d, d, [], _, rfl, hposs, rfl, rfl, ?_, ?_, ?_, rfl, hn, rfl⟩
    · simp only [product, List.map_cons, List.map_nil, mapPy, colFor, stochasticFunction, constFunc, hcol]
    · simp only [List.all_cons, List.all_nil, Bool.and_true, colClose, h1]
      decide +kernel
    · simp only [List.all_cons, List.all_nil, Bool.and_true, colRange, List.all_map, List.all_eq_true]
      intro y hy
      simp only [Function.comp_apply, decide_eq_true_eq]
      refine ⟨h0 y hy, ?_⟩
      rw [← h1]
      apply List.single_le_sum _ _ (List.mem_map_of_mem hy)
      intro z hz
      obtain ⟨x, hx, rfl⟩ := List.mem_map.1 hz
      exact h0 x hx
  refine ⟨_, hmk, rfl, rfl, rfl, rfl, fun dm y hy => ?_⟩
  simp only [Cpd.prob, Cpd.entry, Cpd.col, List.map_nil, product, List.zip_cons_cons, List.zip_nil_right,
    Dict.get?, if_true, Option.bind_some]
  exact get?_zip_map hy

theorem addCpds_append {net n2 : Net} {l1 l2 : List (Node × Rel)} (h : net.addCpds (l1 ++ l2) = (n2, .ok ())) :
    ∃ n1, net.addCpds l1 = (n1, .ok ()) ∧ n1.addCpds l2 = (n2, .ok ()) := by
  induction l1 generalizing net with
  | nil => exact ⟨net, rfl, h⟩
  | cons p l1 ih =>
    obtain ⟨v, r⟩ := p
    simp only [List.cons_append, addCpds] at h ⊢
    generalize net.set v r = x at h ⊢
    obtain ⟨n1, y⟩ := x
    cases y with
    | error e => simp at h
    | ok u => exact ih h

theorem fillLoop_eq {rel : Node → Py Rel} {ρ : Node → Rel} {vs : List Node} {acc acc' : Net}
    (h : ∀ v ∈ vs, rel v = .ok (ρ v)) (ha : acc.addCpds (vs.map (fun v => (v, ρ v))) = (acc', .ok ())) :
    fillLoop rel acc vs = .ok acc' := by
  induction vs generalizing acc with
  | nil =>
    simp only [List.map_nil, addCpds, Prod.mk.injEq, and_true] at ha
    subst ha
    rfl
  | cons v vs ih =>
    unfold fillLoop
    rw [h v (by simp)]
    simp only [List.map_cons, addCpds] at ha ⊢
    generalize acc.set v (ρ v) = x at ha ⊢
    obtain ⟨n1, y⟩ := x
    cases y with
    | error e => simp at ha
    | ok u => exact ih (fun w hw => h w (by simp [hw])) ha

/-- assigning relationships whose CPDs are known -/
theorem assemble {acc : Net} (hf : acc.Fresh) (hw : acc.g.WF) {C : Node → Cpd} {D : Dict Node (List Outcome)}
    (hD : ∀ v ∈ acc.g.nodes, D.get? v = some (C v).domain) {l : List (Node × Rel)} (hnd : (l.map (·.1)).Nodup)
    (hall : ∀ v, v ∈ l.map (·.1) ↔ v ∈ acc.g.nodes)
    (hl : ∀ v r, Dict.get? l v = some r → computed acc.g D v r = .ok (C v))
    (hfit : ∀ v ∈ acc.g.nodes, (C v).Fits acc.g D v) (hwf : ∀ v ∈ acc.g.nodes, (C v).WellFormed) :
    ∃ net', acc.addCpds l = (net', .ok ()) ∧ net'.m = acc.m ∧ net'.base = acc.base ∧
      (∀ v ∈ acc.g.nodes, net'.cpds.get? v = some (C v) ∧ net'.domain.get? v = D.get? v) ∧
      (∀ v, net'.rels.get? v = Dict.get? l v) ∧
      ((∀ v c1, Dict.get? l v = some (.tab c1) → c1.kind ≠ .tabular → ∃ c',
        mkCpd c1.kind c1.var c1.func c1.force (acc.g.parents v) D (cardOf D) = .ok c' ∧ c'.domain = c1.domain ∧
        ∀ a, net'.InDom a → ∀ x, c'.prob D (c'.evidence.map a) x = c1.prob D (c1.evidence.map a) x) → Good net') := by
  classical
  let sol : Node → Option Cpd := fun v => if v ∈ acc.g.nodes then some (C v) else none
  have hsol : ∀ v c, sol v = some c → v ∈ acc.g.nodes ∧ c = C v := by
    intro v c h
    simp only [sol] at h
    split at h
    · rename_i hv; exact ⟨hv, by simpa using h.symm⟩
    · simp at h
  let D' : Dict Node (List Outcome) := acc.g.nodes.map (fun v => (v, (C v).domain))
  have hD' : ∀ v, D'.get? v = (sol v).map Cpd.domain := by
    intro v
    simp only [D', sol]
    rw [get?_map_pair (h := fun v => (C v).domain)]
    split <;> rfl
  have hDn : ∀ v ∈ acc.g.nodes, D'.get? v = D.get? v := by
    intro v hv
    rw [hD', hD v hv]
    simp [sol, hv]
  have hS : Sol acc.g (fun v => Dict.get? l v) sol D' := by
    refine ⟨hD', fun v c hc => ?_, fun v c hc => ?_, fun v r hr hrd => ?_, fun v r hr => ?_⟩
    · obtain ⟨hv, rfl⟩ := hsol v c hc
      obtain ⟨r', hr'⟩ := (Dict.mem_keys (d := l)).1 ((hall v).2 hv)
      refine ⟨r', hr', ?_⟩
      rw [← hl v r' hr']
      exact computed_congr (fun p hp => hDn p (hw.edgeNodes p v hp).1)
    · obtain ⟨hv, rfl⟩ := hsol v c hc
      refine ⟨(hfit v hv).var, fun x hx => ?_⟩
      rcases List.mem_cons.1 hx with rfl | hx
      · rw [(hfit v hv).var]; exact hv
      · exact (hw.edgeNodes x v (((hfit v hv).parents x).1 hx)).1
    · have hv : v ∈ acc.g.nodes := (hall v).1 ((Dict.mem_keys (d := l)).2 ⟨r, hr⟩)
      exact ⟨C v, by simp [sol, hv]⟩
    · exact (hall v).1 ((Dict.mem_keys (d := l)).2 ⟨r, hr⟩)
  have hR0 : Run acc.g (fun v => Dict.get? l v) sol acc := by
    obtain ⟨f1, f2, f3⟩ := hf
    refine ⟨rfl, ?_, ?_, ?_⟩ <;> intro v <;> simp [f1, f2, f3, Dict.get?]
  obtain ⟨net', k1, k2, k3⟩ := addCpds_run hw hS (l := l) hR0
    (by intro v r hr; rw [hf.1] at hr; simp [Dict.get?] at hr)
    (fun p hp' => Dict.get?_of_mem hnd hp')
  have hrel' : ∀ v, net'.rels.get? v = Dict.get? l v := by
    intro v
    rw [addCpds_rels hnd k1 v, hf.1]
    cases Dict.get? l v <;> rfl
  have hfin := fun v => k2.final hw hS k3 hrel' v
  have hgm : net'.m = acc.m ∧ net'.base = acc.base := by
    clear hfin hrel' k3 k2 hR0 hS hDn hD' hsol hwf hfit hl hall hnd hf hD hw
    induction l generalizing acc with
    | nil =>
      simp only [addCpds, Prod.mk.injEq, and_true] at k1
      subst k1
      exact ⟨rfl, rfl⟩
    | cons p l ih =>
      obtain ⟨v, r⟩ := p
      unfold addCpds at k1
      have hm := acc.set_m v r
      generalize acc.set v r = x at k1 hm
      obtain ⟨n1, y⟩ := x
      cases y with
      | error e => simp at k1
      | ok u =>
        obtain ⟨i1, i2⟩ := ih k1
        exact ⟨i1.trans hm.1, i2.trans hm.2⟩
  have hg' : net'.g = acc.g := congrArg Macid.g hgm.1
  have hdom' : ∀ v ∈ acc.g.nodes, net'.domain.get? v = D.get? v := fun v hv => by rw [(hfin v).2, hDn v hv]
  have hcpd' : ∀ v ∈ acc.g.nodes, net'.cpds.get? v = some (C v) := fun v hv => by
    rw [(hfin v).1]; simp [sol, hv]
  refine ⟨net', k1, hgm.1, hgm.2, fun v hv => ⟨hcpd' v hv, hdom' v hv⟩, hrel', fun ht => ?_⟩
  have hpn : ∀ v, ∀ p ∈ acc.g.parents v, p ∈ acc.g.nodes := fun v p hp => (hw.edgeNodes p v (Graph.mem_parents.1 hp)).1
  refine ⟨hg' ▸ hw, ?_, ?_, ?_, ?_, ?_, ?_, ?_⟩
  · exact (runs_keys (addCpds_runs k1) (by rw [hf.1]; simp [Dict.keys]) (by rw [hf.1]; simp [Dict.keys])).1
  · exact (runs_keys (addCpds_runs k1) (by rw [hf.1]; simp [Dict.keys]) (by rw [hf.1]; simp [Dict.keys])).2
  · intro v c hc
    rw [(hfin v).1] at hc
    obtain ⟨r, h1, h2⟩ := hS.cpd v c hc
    refine ⟨?_, r, by rw [hrel', h1], ?_⟩
    · rw [(hfin v).2, hD', hc]; rfl
    · rw [hg', ← h2]
      exact computed_congr (fun p _ => (hfin p).2)
  · intro v hv
    rw [hg'] at hv
    exact ⟨C v, hcpd' v hv, by rw [hdom' v hv, hD v hv]⟩
  · intro v c hc
    rw [(hfin v).1] at hc
    obtain ⟨hv, rfl⟩ := hsol v c hc
    have hf5 := hfit v hv
    rw [hg']
    refine ⟨hf5.var, hf5.parents, ?_, hf5.sums⟩
    rw [hf5.cards]
    apply List.map_congr_left
    intro p hp
    rw [hdom' p (hw.edgeNodes p v ((hf5.parents p).1 hp)).1]
  · intro v c hc
    rw [(hfin v).1] at hc
    obtain ⟨hv, rfl⟩ := hsol v c hc
    exact hwf v hv
  · intro v c1 hc1 hne
    rw [hrel'] at hc1
    have hv : v ∈ acc.g.nodes := (hall v).1 ((Dict.mem_keys (d := l)).2 ⟨_, hc1⟩)
    obtain ⟨c', e1, e2, e3⟩ := ht v c1 hc1 hne
    have hc1' : c1 = C v := by
      have := hl v _ hc1
      simpa [computed] using this
    have hev : c'.evidence = acc.g.parents v := (mkCpd_fields e1).2.1
    refine ⟨c', ?_, e2, fun a ha x => ?_⟩
    · rw [hg', ← e1]
      refine mkCpd_congr (fun p hp => hdom' p (hpn v p hp)) (fun p hp => ?_)
      simp [cardOf, hdom' p (hpn v p hp)]
    · rw [prob_congr (c := c') (fun p hp => hdom' p (hpn v p (hev ▸ hp))),
        prob_congr (c := c1) (fun p hp => hdom' p (by
          rw [hc1'] at hp
          exact (hw.edgeNodes p v (((hfit v hv).parents p).1 hp)).1))]
      exact e3 a ha x

/-- one round of the loop that gives unplayed decisions a random rule -/
theorem mixStep_spec {net : Net} (hU : net.Usable) (hnames : NamesOk net.g) (pick : Pick) {ds : List Node}
    (hds : ∀ d ∈ ds, d ∈ net.m.decisions) {d : Node} (hd : d ∈ net.m.decisions) :
    ∃ net', mixStep pick ds net d = (net', .ok ()) ∧ net'.Usable ∧ OnlyRules net [d] net' ∧
      (net.Unplayed ds d → net'.undecided d = false ∧ (∃ c, net'.cpds.get? d = some c ∧ c.kind = .stochastic) ∧
        ∀ a, net.InDom a → net'.kernel d a = 1 / ((net.dom d).length : Rat)) ∧
      (¬ net.Unplayed ds d → net' = net) := by
  have hdn := hU.roles.nodes d (Or.inl hd)
  obtain ⟨c, hc, _⟩ := hU.good.complete d hdn
  have hplay : ∀ e ∈ ds, net.m.Playable e := by
    intro e he
    obtain ⟨a, ha⟩ := Dict.mem_keys.1 (hds e he)
    refine ⟨a, role_decision.2 ha, ?_⟩
    obtain ⟨l, hl, _⟩ := (hU.roles.dec.iff e a).1 ha
    exact (hU.staffed.both a).2 (Dict.mem_keys.2 ⟨l, hl⟩)
  obtain ⟨ad, had⟩ := Dict.mem_keys.1 hd
  obtain ⟨b, hb, hbi⟩ := (C18_is_s_reachable net.m hU.roles hnames pick ds d hplay).1 ⟨ad, role_decision.2 had⟩
  unfold mixStep getCpd
  rw [hb]
  cases b with
  | true =>
    refine ⟨net, rfl, hU, .rfl' _ _, ?_, fun _ => rfl⟩
    rintro ⟨_, _, h⟩
    exact absurd (hbi.1 rfl) h
  | false =>
    rw [if_pos hdn, hc]
    simp only
    by_cases hk : c.kind = .decision
    · rw [if_pos hk]
      have hund : net.undecided d = true := by simp [undecided, hc, hk]
      have hno : ¬ net.m.RelevantTo ds d := fun h => by simpa using hbi.2 h
      obtain ⟨net', c', h1, h2, h3, h4, h5, h6⟩ := imputeRandom_usable hU hdn
      exact ⟨net', h1, h2, h3, fun _ => ⟨by simp [undecided, h4, h5], ⟨c', h4, h5⟩, h6⟩, fun h => absurd ⟨hd, hund, hno⟩ h⟩
    · rw [if_neg hk]
      refine ⟨net, rfl, hU, .rfl' _ _, fun h => ?_, fun _ => rfl⟩
      have h1 := h.2.1
      simp [undecided, hc, hk] at h1

theorem mixSteps_spec {pick : Pick} {ds : List Node} : ∀ (L : List Node) {net : Net}, net.Usable → NamesOk net.g →
    (∀ d ∈ ds, d ∈ net.m.decisions) → (∀ d ∈ L, d ∈ net.m.decisions) → L.Nodup →
    ∃ net', forNet (mixStep pick ds) net L = (net', .ok ()) ∧ net'.Usable ∧ OnlyRules net L net' ∧
      (∀ d ∈ L, net.Unplayed ds d → net'.undecided d = false ∧ (∃ c, net'.cpds.get? d = some c ∧ c.kind = .stochastic) ∧
        ∀ a, net.InDom a → net'.kernel d a = 1 / ((net.dom d).length : Rat)) ∧
      (∀ d, ¬ net.Unplayed ds d → net'.cpds.get? d = net.cpds.get? d)
  | [], net, hU, _, _, _, _ => ⟨net, rfl, hU, .rfl' _ _, by simp, fun _ _ => rfl⟩
  | d :: L, net, hU, hn, hds, hL, hnd => by
    obtain ⟨n1, h1, h2, h3, h4, h5⟩ := mixStep_spec hU hn pick hds (hL d (by simp))
    obtain ⟨hdL, hnd'⟩ := List.nodup_cons.1 hnd
    obtain ⟨n2, k1, k2, k3, k4, k5⟩ := mixSteps_spec L h2 (by rw [h3.g]; exact hn) (by rw [h3.m]; exact hds)
      (fun e he => by rw [h3.m]; exact hL e (by simp [he])) hnd'
    have hidle : ∀ e, e ≠ d → (n1.Unplayed ds e ↔ net.Unplayed ds e) := by
      intro e he
      unfold Unplayed
      rw [h3.m, h3.undecided (by simpa using he)]
    refine ⟨n2, by simp only [forNet, h1]; exact k1, k2, h3.trans k3 (by simp) (fun w hw => by simp [hw]), ?_, ?_⟩
    · intro e he hi
      rcases List.mem_cons.1 he with rfl | he'
      · obtain ⟨q1, ⟨c, q3, q4⟩, q2⟩ := h4 hi
        refine ⟨by rw [k3.undecided hdL]; exact q1, ⟨c, by rw [k3.cpds e hdL]; exact q3, q4⟩, fun a ha => ?_⟩
        rw [k3.kernel hdL]
        exact q2 a ha
      · have hed : e ≠ d := by rintro rfl; exact hdL he'
        obtain ⟨q1, q3, q2⟩ := k4 e he' ((hidle e hed).2 hi)
        refine ⟨q1, q3, fun a ha => ?_⟩
        rw [q2 a ((h3.inDom a).2 ha), h3.dom]
    · intro e hi
      by_cases hed : e = d
      · subst hed
        have : n1 = net := h5 hi
        subst this
        exact k5 e hi
      · rw [k5 e (fun h => hi ((hidle e hed).1 h))]
        exact h3.cpds e (by simpa using hed)

/-- the relationship of a node that is cut off from its parents -/
theorem marginalRel_spec {net : Net} (hG : Good net) (hN : net.Normalised) {v : Node} (hv : v ∈ net.g.nodes) {c : Cpd}
    (hc : net.cpds.get? v = some c) (hk : c.kind ≠ .tabular) (hs : (net.dom v).Pairwise (· ≤ ·)) (D : Dict Node (List Outcome)) :
    ∃ r cv, net.marginalRel v = .ok r ∧ (∀ c1, r ≠ .tab c1) ∧
      (∀ g : Graph, g.parents v = [] → computed g D v r = .ok cv) ∧
      cv.domain = c.domain ∧ cv.var = v ∧ cv.evidence = [] ∧ cv.kind = .constant ∧
      ∀ a, net.InDom a → ∀ dm, cv.prob dm [] (a v) = some (net.average v (net.kernel v) a) := by
  have hfit := hG.fits v c hc
  have hwf := hG.cpdOk v c hc
  have hdom : net.dom v = c.domain := dom_eq (hG.reflects v c hc).1
  have hpn : ∀ p ∈ c.evidence, p ∈ net.g.nodes := fun p hp => (hG.wf.edgeNodes p v ((hfit.parents p).1 hp)).1
  have hvne : v ∉ c.evidence := fun h => hG.wf.acyclic v (TransGen.single ((hfit.parents v).1 h))
  have hperm : c.evidence.Perm (net.g.parents v) :=
    (List.perm_ext_iff_of_nodup hwf.evidence (Graph.nodup_parents hG.wf.edgesNodup v)).2
      (fun p => by rw [hfit.parents, Graph.mem_parents])
  have hdn : ∀ p ∈ c.evidence, ((net.domain.get? p).getD []).Nodup := by
    intro p hp
    have := (dom_props hG (hpn p hp)).1
    exact this
  have hav := averaged_eq hwf hfit.cards hdn
  set doms := c.evidence.map (fun p => (net.domain.get? p).getD []) with hdoms
  have hdoms' : doms = c.evidence.map net.dom := rfl
  -- the columns sum to one
  have hentry : ∀ vals ∈ product doms, (∀ x ∈ c.domain, 0 ≤ (c.prob net.domain vals x).getD 0) ∧
      (c.domain.map (fun x => (c.prob net.domain vals x).getD 0)).sum = 1 := by
    intro vals hvals
    obtain ⟨a0, ha0, _⟩ := exists_inDom hG (fun _ => 0) (fun _ => False) (by simp)
    have hvm := mem_product.1 hvals
    have hlen : c.evidence.length = vals.length := by
      have := hvm.length_eq
      rw [hdoms, List.length_map] at this
      exact this.symm
    have hz := zip_values hwf.evidence hlen (0 : Outcome)
    let a : Assign := fun p => if p ∈ c.evidence then (Dict.get? (c.evidence.zip vals) p).getD 0 else a0 p
    have hmapa : c.evidence.map a = vals := by
      conv_rhs => rw [hz]
      apply List.map_congr_left
      intro p hp
      simp [a, hp]
    have hain : net.InDom a := by
      intro p hp
      by_cases hpe : p ∈ c.evidence
      · obtain ⟨i, hi, rfl⟩ := List.mem_iff_getElem.1 hpe
        have h1 : a c.evidence[i] = vals[i]'(hlen ▸ hi) := by
          simp only [a, hpe, if_true]
          rw [get?_zip hwf.evidence hi (hlen ▸ hi)]
          rfl
        rw [h1]
        rw [List.forall₂_iff_get] at hvm
        have h2 := hvm.2 i (hlen ▸ hi) (by rw [hdoms, List.length_map]; exact hi)
        simpa [hdoms, dom] using h2
      · simp only [a, hpe, if_false]
        exact ha0 p hp
    have hker : ∀ x, net.kernel v (Assign.upd a v x) = (c.prob net.domain vals x).getD 0 := by
      intro x
      unfold kernel
      rw [hc]
      simp only [Assign.upd_same]
      congr 2
      rw [← hmapa]
      apply List.map_congr_left
      intro p hp
      exact Assign.upd_ne _ _ (fun e => hvne (e ▸ hp))
    constructor
    · intro x hx
      rw [← hker x]
      exact (hN v hv _ (inDom_upd hain (hdom ▸ hx))).1
    · have := (hN v hv a hain).2
      rw [hdom] at this
      rw [← this]
      congr 1
      apply List.map_congr_left
      intro x _
      rw [hker x]
  let S : Outcome → Rat := fun x => ((product doms).map (fun vals => (c.prob net.domain vals x).getD 0)).sum
  have htot : (c.domain.map S).sum = ((product doms).length : Rat) := by
    simp only [S]
    rw [sum_map_sum_comm]
    rw [List.map_congr_left (fun vals hvals => (hentry vals hvals).2)]
    simp
  have hposn : 0 < (product doms).length := by
    rw [_root_.Verif.length_product]
    apply Nat.pos_of_ne_zero
    intro h0
    obtain ⟨l, hl, h1⟩ := List.mem_map.1 (List.prod_eq_zero_iff.1 h0)
    obtain ⟨p, hp, rfl⟩ := List.mem_map.1 (hdoms ▸ hl)
    exact (dom_props hG (hpn p hp)).2 (List.length_eq_zero_iff.1 h1)
  have hposq : (0 : Rat) < ((product doms).length : Rat) := by exact_mod_cast hposn
  let w : Outcome → Rat := fun x => S x / (c.domain.map S).sum
  have hav' : c.averaged = c.domain.map w := hav
  have hw0 : ∀ x ∈ c.domain, 0 ≤ w x := by
    intro x hx
    simp only [w, htot]
    exact div_nonneg (sum_nonneg' (fun vals hvals => (hentry vals hvals).1 x hx)) hposq.le
  have hw1 : (c.domain.map w).sum = 1 := by
    simp only [w, div_eq_mul_inv]
    rw [List.sum_map_mul_right, htot]
    exact mul_inv_cancel₀ hposq.ne'
  obtain ⟨cv, e1, e2, e3, e4, e5, e6⟩ := mkCpd_const (v := v) hwf.nodup (hdom ▸ hs) hw0 hw1 D (cardOf D)
  have hzip : (c.domain.zip c.averaged).map (fun p => (p.1, some p.2)) = c.domain.map (fun x => (x, some (w x))) := by
    rw [hav']
    clear e1 e6 hw1 hw0
    induction c.domain with
    | nil => rfl
    | cons x l ih => simp [ih]
  refine ⟨.dist (c.domain.map (fun x => (x, some (w x)))), cv, ?_, by simp, ?_, e2, e3, e4, e5, ?_⟩
  · unfold marginalRel getCpd
    rw [if_pos hv, hc]
    simp only
    rw [if_neg, if_neg hk, hzip]
    simp only [Bool.not_eq_false, List.all_eq_true, decide_eq_true_eq]
    intro p hp
    exact hperm.mem_iff.2 hp
  · intro g hg
    unfold computed
    rw [hg]
    exact e1
  · intro a ha dm
    rw [e6 dm (a v) (hdom ▸ ha v hv)]
    congr 1
    simp only [w, htot, average]
    have hden : sumOver net.dom (net.g.parents v) (fun _ => (1 : Rat)) a = ((product doms).length : Rat) := by
      rw [← sumOver_perm hperm, sumOver_product hwf.evidence (fun _ => 1), ← hdoms']
      simp
    rw [hden]
    congr 1
    rw [← sumOver_perm hperm]
    have hF : ∀ b : Assign, (∀ u ∈ c.evidence, b u ∈ net.dom u) → (∀ u, u ∉ c.evidence → b u = a u) →
        net.kernel v b = (fun vals => (c.prob net.domain vals (a v)).getD 0) (c.evidence.map b) := by
      intro b _ hb
      unfold kernel
      rw [hc]
      simp only
      rw [hb v hvne]
    rw [sumOver_congr hF, sumOver_product hwf.evidence (fun vals => (c.prob net.domain vals (a v)).getD 0), ← hdoms']

/-- a stored CPD built by pycid can be built again -/
theorem rebuildable {net : Net} (hG : Good net) {v : Node} {c : Cpd} (hc : net.cpds.get? v = some c) (hk : c.kind ≠ .tabular) :
    ∃ c', mkCpd c.kind c.var c.func c.force (net.g.parents v) net.domain (cardOf net.domain) = .ok c' ∧ net.SameCpd c c' := by
  obtain ⟨_, r, hr, hcomp⟩ := hG.reflects v c hc
  have key : ∀ {kind f force}, mkCpd kind v f force (net.g.parents v) net.domain (cardOf net.domain) = .ok c →
      mkCpd c.kind c.var c.func c.force (net.g.parents v) net.domain (cardOf net.domain) = .ok c := by
    intro kind f force h
    obtain ⟨f1, f2, f3, f4, f5, _⟩ := mkCpd_fields h
    rw [f1, f3, f4, f5]
    exact h
  cases r with
  | tab c0 =>
    simp only [computed, Except.ok.injEq] at hcomp
    subst hcomp
    exact hG.tabs v c0 hr hk
  | func f => unfold computed at hcomp; exact ⟨c, key hcomp, rfl, fun _ _ _ => rfl⟩
  | dist f => unfold computed at hcomp; exact ⟨c, key hcomp, rfl, fun _ _ _ => rfl⟩
  | seq f => unfold computed at hcomp; exact ⟨c, key hcomp, rfl, fun _ _ _ => rfl⟩

theorem sumOver_upd {dom : Node → List Outcome} {v : Node} {vs : List Node} (hv : v ∉ vs) (k : Assign → Rat) (b : Assign) (x : Outcome) :
    sumOver dom vs k (Assign.upd b v x) = sumOver dom vs (fun c => k (Assign.upd c v x)) b := by
  induction vs generalizing b with
  | nil => rfl
  | cons w vs ih =>
    simp only [List.mem_cons, not_or] at hv
    simp only [sumOver]
    congr 1
    apply List.map_congr_left
    intro y _
    rw [Assign.upd_comm _ hv.1, ih hv.2]

/-- filling in the skeleton -/
theorem fill_spec {N : Net} (hG : Good N) (hN : N.Normalised) {sk : Macid} {K : Node → Prop} (hw : sk.g.WF)
    (hn : ∀ v ∈ sk.g.nodes, v ∈ N.g.nodes) (he : ∀ u v, sk.g.Edge u v ↔ N.g.Edge u v ∧ K v) {l1 l2 : List Node}
    (hl1 : ∀ v, v ∈ l1 ↔ v ∈ sk.g.nodes ∧ ¬ K v) (hl2 : ∀ v, v ∈ l2 ↔ v ∈ sk.g.nodes ∧ K v) (hn1 : l1.Nodup) (hn2 : l2.Nodup)
    (hm : ∀ v ∈ l1, N.Own v ∧ (N.dom v).Pairwise (· ≤ ·)) :
    ∃ s1 sg, fillLoop N.marginalRel ⟨sk, [], [], [], Macid.new⟩ l1 = .ok s1 ∧ fillLoop N.keptRel s1 l2 = .ok sg ∧
      sg.m = sk ∧ sg.base = Macid.new ∧ Good sg ∧ sg.Normalised ∧ (∀ v ∈ sk.g.nodes, sg.dom v = N.dom v) ∧
      (∀ v ∈ l2, (∀ a, sg.kernel v a = N.kernel v a) ∧ sg.undecided v = N.undecided v) ∧
      (∀ v ∈ l1, sg.undecided v = false ∧ ∀ a, N.InDom a → sg.kernel v a = N.average v (N.kernel v) a) ∧
      (∀ v ∈ sk.g.nodes, N.Own v → sg.Own v) := by
  classical
  have hne : Nonempty Cpd := ⟨⟨"", [], [], [], [], .tabular, fun _ => .error .key, none⟩⟩
  have hcpd : ∀ v ∈ N.g.nodes, ∃ c, N.cpds.get? v = some c ∧ N.domain.get? v = some c.domain := hG.complete
  choose! cN hcN hdN using hcpd
  have hmr : ∀ v ∈ l1, ∃ r cv, N.marginalRel v = .ok r ∧ (∀ c1, r ≠ .tab c1) ∧
      (∀ g : Graph, g.parents v = [] → computed g N.domain v r = .ok cv) ∧
      cv.domain = (cN v).domain ∧ cv.var = v ∧ cv.evidence = [] ∧ cv.kind = .constant ∧
      ∀ a, N.InDom a → ∀ dm, cv.prob dm [] (a v) = some (N.average v (N.kernel v) a) := by
    intro v hv
    have hvn := hn v ((hl1 v).1 hv).1
    exact marginalRel_spec hG hN hvn (hcN v hvn) ((hm v hv).1 _ (hcN v hvn)) (hm v hv).2 N.domain
  have hner : Nonempty Rel := ⟨.seq []⟩
  choose! R M hR1 hR2 hR3 hR4 hR5 hR6 hR7 hR8 using hmr
  have hpar1 : ∀ v ∈ l1, sk.g.parents v = [] := by
    intro v hv
    apply List.eq_nil_iff_forall_not_mem.2
    intro p hp
    exact ((hl1 v).1 hv).2 ((he p v).1 (Graph.mem_parents.1 hp)).2
  have hpar2 : ∀ v ∈ l2, (sk.g.parents v).Perm (N.g.parents v) := by
    intro v hv
    refine (List.perm_ext_iff_of_nodup (Graph.nodup_parents hw.edgesNodup v) (Graph.nodup_parents hG.wf.edgesNodup v)).2 (fun p => ?_)
    rw [Graph.mem_parents, Graph.mem_parents, he]
    exact and_iff_left ((hl2 v).1 hv).2
  have hsplit : ∀ v, v ∈ sk.g.nodes → v ∈ l1 ∨ (v ∈ l2 ∧ v ∉ l1) := by
    intro v hv
    by_cases h : K v
    · exact Or.inr ⟨(hl2 v).2 ⟨hv, h⟩, fun h' => ((hl1 v).1 h').2 h⟩
    · exact Or.inl ((hl1 v).2 ⟨hv, h⟩)
  have hdisj : ∀ v ∈ l2, v ∉ l1 := fun v h2 h1 => ((hl1 v).1 h1).2 ((hl2 v).1 h2).2
  let C : Node → Cpd := fun v => if v ∈ l1 then M v else cN v
  have hC1 : ∀ v ∈ l1, C v = M v := fun v h => by simp [C, h]
  have hC2 : ∀ v ∈ l2, C v = cN v := fun v h => by simp [C, hdisj v h]
  let ρ : Node → Rel := fun v => if v ∈ l1 then R v else .tab (cN v)
  let l : List (Node × Rel) := l1.map (fun v => (v, R v)) ++ l2.map (fun v => (v, .tab (cN v)))
  have hlk : l.map (·.1) = l1 ++ l2 := by simp [l, Function.comp_def]
  have hl12 : (l1 ++ l2).Nodup := List.nodup_append.2 ⟨hn1, hn2, by rintro x h1 y h2 rfl; exact hdisj x h2 h1⟩
  have hlget : ∀ v r, Dict.get? l v = some r → (v ∈ l1 ∧ r = R v) ∨ (v ∈ l2 ∧ r = .tab (cN v)) := by
    intro v r h
    rcases List.mem_append.1 (Dict.mem_of_get? h) with h | h
    · obtain ⟨w, hw', e⟩ := List.mem_map.1 h
      cases e
      exact Or.inl ⟨hw', rfl⟩
    · obtain ⟨w, hw', e⟩ := List.mem_map.1 h
      cases e
      exact Or.inr ⟨hw', rfl⟩
  have hfit2 : ∀ v ∈ l2, (cN v).Fits sk.g N.domain v := by
    intro v hv
    have hvn := hn v ((hl2 v).1 hv).1
    have := hG.fits v _ (hcN v hvn)
    exact ⟨this.var, fun p => by rw [this.parents, he]; exact (and_iff_left ((hl2 v).1 hv).2).symm, this.cards, this.sums⟩
  have hcomp1 : ∀ v ∈ l1, computed sk.g N.domain v (R v) = .ok (M v) := fun v hv => hR3 v hv sk.g (hpar1 v hv)
  have hmk1 : ∀ v ∈ l1, ∃ kind f force, mkCpd kind v f force (sk.g.parents v) N.domain (cardOf N.domain) = .ok (M v) := by
    intro v hv
    have := hcomp1 v hv
    cases hr : R v with
    | tab c1 => exact absurd hr (hR2 v hv c1)
    | func f => rw [hr] at this; unfold computed at this; exact ⟨_, _, _, this⟩
    | dist f => rw [hr] at this; unfold computed at this; exact ⟨_, _, _, this⟩
    | seq f => rw [hr] at this; unfold computed at this; exact ⟨_, _, _, this⟩
  obtain ⟨sg, k1, k2, k3, k4, k5, k6⟩ := assemble (acc := ⟨sk, [], [], [], Macid.new⟩) ⟨rfl, rfl, rfl⟩ hw (C := C) (D := N.domain)
    (by
      intro v hv
      rw [hdN v (hn v hv)]
      rcases hsplit v hv with h | ⟨h, _⟩
      · rw [hC1 v h, hR4 v h]
      · rw [hC2 v h])
    (l := l) (by rw [hlk]; exact hl12)
    (by
      intro v
      rw [hlk, List.mem_append, hl1, hl2]
      constructor
      · rintro (h | h) <;> exact h.1
      · intro h
        by_cases hK : K v
        · exact Or.inr ⟨h, hK⟩
        · exact Or.inl ⟨h, hK⟩)
    (by
      intro v r hr
      rcases hlget v r hr with ⟨h, rfl⟩ | ⟨h, rfl⟩
      · rw [hC1 v h]; exact hcomp1 v h
      · rw [hC2 v h]; rfl)
    (by
      intro v hv
      rcases hsplit v hv with h | ⟨h, _⟩
      · rw [hC1 v h]
        obtain ⟨_, _, _, hmk⟩ := hmk1 v h
        exact mkCpd_fits hmk
      · rw [hC2 v h]; exact hfit2 v h)
    (by
      intro v hv
      rcases hsplit v hv with h | ⟨h, _⟩
      · rw [hC1 v h]
        obtain ⟨_, _, _, hmk⟩ := hmk1 v h
        refine mkCpd_wf hmk (Graph.nodup_parents hw.edgesNodup v) ?_
        rw [hR4 v h]
        exact (hG.cpdOk v _ (hcN v (hn v hv))).nonempty
      · rw [hC2 v h]; exact hG.cpdOk v _ (hcN v (hn v hv)))
  obtain ⟨s1, q1, q2⟩ := addCpds_append k1
  have hdomeq : ∀ v ∈ sk.g.nodes, sg.dom v = N.dom v := fun v hv => by unfold dom; rw [(k4 v hv).2]
  have hext : ∀ a, sg.InDom a → ∃ b, N.InDom b ∧ ∀ v ∈ sk.g.nodes, b v = a v := by
    intro a ha
    refine exists_inDom hG a (fun v => v ∈ sk.g.nodes) (fun u hu _ => ?_)
    rw [← hdomeq u hu]
    exact ha u (by rw [show sg.g = sk.g from congrArg Macid.g k2]; exact hu)
  have hev2 : ∀ v ∈ l2, ∀ p ∈ (cN v).evidence, p ∈ sk.g.nodes := fun v hv p hp =>
    (hw.edgeNodes p v (((hfit2 v hv).parents p).1 hp)).1
  have hgood : Good sg := by
    apply k6
    intro v c1 hc1 hk
    rcases hlget v _ hc1 with ⟨h, e⟩ | ⟨h, e⟩
    · exact absurd e.symm (hR2 v h c1)
    · simp only [Rel.tab.injEq] at e
      subst e
      have hvn := hn v ((hl2 v).1 h).1
      obtain ⟨c', e1, e2⟩ := rebuildable hG (hcN v hvn) hk
      obtain ⟨c2, f1, f2, f3⟩ := mkCpd_perm (Graph.nodup_parents hG.wf.edgesNodup v) (hpar2 v h) e1
      refine ⟨c2, f1, f2.trans e2.1, fun a ha x => ?_⟩
      obtain ⟨b, hb1, hb2⟩ := hext a ha
      have h2 : c2.evidence.map a = c2.evidence.map b := by
        apply List.map_congr_left
        intro p hp
        rw [(mkCpd_fields f1).2.1] at hp
        exact (hb2 p (hw.edgeNodes p v (Graph.mem_parents.1 hp)).1).symm
      have h3 : (cN v).evidence.map a = (cN v).evidence.map b := by
        apply List.map_congr_left
        intro p hp
        exact (hb2 p (hev2 v h p hp)).symm
      rw [h2, h3, ← e2.2 b hb1 x]
      exact f3 b (hb1.inDoms hG.complete (fun p hp => (hG.wf.edgeNodes p v (Graph.mem_parents.1 hp)).1)) x
  have hker2 : ∀ v ∈ l2, ∀ a, sg.kernel v a = N.kernel v a := by
    intro v hv a
    have hvs := ((hl2 v).1 hv).1
    unfold kernel
    rw [(k4 v hvs).1, hC2 v hv, hcN v (hn v hvs)]
    simp only
    rw [prob_congr (fun p hp => (k4 p (hev2 v hv p hp)).2)]
  have hker1 : ∀ v ∈ l1, ∀ a, N.InDom a → sg.kernel v a = N.average v (N.kernel v) a := by
    intro v hv a ha
    unfold kernel
    rw [(k4 v ((hl1 v).1 hv).1).1, hC1 v hv]
    simp only
    rw [hR6 v hv, List.map_nil, hR8 v hv a ha]
    rfl
  have hnorm : sg.Normalised := by
    intro v hv a ha
    have hvs : v ∈ sk.g.nodes := by rw [← show sg.g = sk.g from congrArg Macid.g k2]; exact hv
    obtain ⟨b, hb1, hb2⟩ := hext a ha
    have hab : ∀ x, sg.kernel v (Assign.upd a v x) = sg.kernel v (Assign.upd b v x) := by
      intro x
      apply kernel_depends hgood hv
      intro u hu
      by_cases huv : u = v
      · simp [huv]
      · rw [Assign.upd_ne _ _ huv, Assign.upd_ne _ _ huv]
        rcases hu with h | h
        · exact absurd h huv
        · rw [show sg.g = sk.g from congrArg Macid.g k2] at h
          exact (hb2 u (hw.edgeNodes u v h).1).symm
    have hva : sg.kernel v a = sg.kernel v (Assign.upd b v (a v)) := by rw [← hab, Assign.upd_self]
    have hxb : ∀ x ∈ sg.dom v, N.InDom (Assign.upd b v x) := fun x hx => inDom_upd hb1 (by rw [← hdomeq v hvs]; exact hx)
    rw [hva, List.map_congr_left (fun x _ => hab x)]
    rcases hsplit v hvs with h | ⟨h, _⟩
    · have hpos : ∀ c : Assign, N.InDom c → 0 ≤ N.average v (N.kernel v) c := by
        intro c hc
        unfold average
        refine div_nonneg (sumOver_nonneg ?_) (sumOver_nonneg (fun _ _ _ => by norm_num))
        intro e he1 he2
        refine (hN v (hn v hvs) e ?_).1
        intro w hwn
        by_cases hwp : w ∈ N.g.parents v
        · exact he1 w hwp
        · rw [he2 w hwp]; exact hc w hwn
      constructor
      · rw [hker1 v h _ (hxb _ (ha v hv))]
        exact hpos _ (hxb _ (ha v hv))
      · have hcol : ((sg.dom v).map (fun x => sg.kernel v (Assign.upd b v x))).sum = 1 := by
          obtain ⟨kind, f, force, hmk⟩ := hmk1 v h
          rw [List.map_congr_left (fun x hx => hker1 v h _ (hxb x hx)), hdomeq v hvs]
          have hvp : v ∉ N.g.parents v := fun hp => hG.wf.acyclic v (TransGen.single (Graph.mem_parents.1 hp))
          have hden : ∀ c : Assign, sumOver N.dom (N.g.parents v) (fun _ => (1 : Rat)) c =
              ((product ((N.g.parents v).map N.dom)).length : Rat) := by
            intro c
            rw [sumOver_product (Graph.nodup_parents hG.wf.edgesNodup v) (fun _ => 1)]
            simp
          have hpos' : ((product ((N.g.parents v).map N.dom)).length : Rat) ≠ 0 := by
            have : (product ((N.g.parents v).map N.dom)).length ≠ 0 := by
              rw [_root_.Verif.length_product]
              intro h0
              obtain ⟨l, hl, h1⟩ := List.mem_map.1 (List.prod_eq_zero_iff.1 h0)
              obtain ⟨p, hp, rfl⟩ := List.mem_map.1 hl
              exact (dom_props hG (hG.wf.edgeNodes p v (Graph.mem_parents.1 hp)).1).2 (List.length_eq_zero_iff.1 h1)
            exact_mod_cast this
          simp only [average, hden, div_eq_mul_inv]
          rw [List.sum_map_mul_right]
          have : ((N.dom v).map (fun x => sumOver N.dom (N.g.parents v) (N.kernel v) (Assign.upd b v x))).sum =
              ((product ((N.g.parents v).map N.dom)).length : Rat) := by
            have e1 : ∀ x, sumOver N.dom (N.g.parents v) (N.kernel v) (Assign.upd b v x) =
                sumOver N.dom (N.g.parents v) (fun c => N.kernel v (Assign.upd c v x)) b := by
              exact fun x => sumOver_upd hvp _ _ x
            simp only [e1]
            rw [← sumOver_sum, ← hden b]
            apply sumOver_congr
            intro c hc1 hc2
            refine (hN v (hn v hvs) c ?_).2
            intro w hwn
            by_cases hwp : w ∈ N.g.parents v
            · exact hc1 w hwp
            · rw [hc2 w hwp]; exact hb1 w hwn
          rw [this]
          exact mul_inv_cancel₀ hpos'
        exact hcol
    · rw [hker2 v h, List.map_congr_left (fun x _ => hker2 v h _), hdomeq v hvs]
      have hbv : N.InDom (Assign.upd b v (a v)) := hxb _ (ha v hv)
      refine ⟨(hN v (hn v hvs) _ hbv).1, (hN v (hn v hvs) b hb1).2⟩
  refine ⟨s1, sg, fillLoop_eq hR1 q1, fillLoop_eq (ρ := fun v => .tab (cN v)) (fun v hv => ?_) q2, k2, k3, hgood, hnorm, hdomeq,
    fun v hv => ⟨hker2 v hv, ?_⟩, fun v hv => ⟨?_, hker1 v hv⟩, fun v hvs ho c hc => ?_⟩
  · have hvn := hn v ((hl2 v).1 hv).1
    simp [keptRel, getCpd, hvn, hcN v hvn]
  · have hvs := ((hl2 v).1 hv).1
    unfold undecided
    rw [(k4 v hvs).1, hC2 v hv, hcN v (hn v hvs)]
  · unfold undecided
    rw [(k4 v ((hl1 v).1 hv).1).1, hC1 v hv]
    simp [hR7 v hv]
  · rw [(k4 v hvs).1] at hc
    cases hc
    rcases hsplit v hvs with h | ⟨h, _⟩
    · rw [hC1 v h, hR7 v h]; simp
    · rw [hC2 v h]; exact ho _ (hcN v (hn v hvs))

end Net
end Verif

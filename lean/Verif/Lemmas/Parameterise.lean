import Verif.Lemmas.Realize

/-!
# Every family of conditional distributions is a parameterisation
-/

namespace Verif

open Graph Relation Macid

/-- a function that returns whole distributions over a sorted domain -/
theorem mkCpd_full {v : Node} {domain : List Outcome} {ps : List Node} {dom : Dict Node (List Outcome)}
    {δ : PV → Outcome → Rat} (hs : domain.Pairwise (· < ·)) (hne : domain ≠ [])
    (hps : ∀ p ∈ ps, ∃ d, dom.get? p = some d ∧ d ≠ [])
    (h0 : ∀ vals, Instantiation ps dom vals → ∀ x ∈ domain, 0 ≤ δ (pvOf ps vals) x)
    (h1 : ∀ vals, Instantiation ps dom vals → (domain.map (δ (pvOf ps vals))).sum = 1) :
    ∃ c, mkCpd .stochastic v (fun pv => .ok (.dist (domain.map (fun x => (x, some (δ pv x)))))) none ps dom (cardOf dom) = .ok c ∧
      c.domain = domain ∧ ∀ vals, Instantiation ps dom vals → ∀ x ∈ domain, c.prob dom vals x = some (δ (pvOf ps vals) x) := by
  have hn : domain.Nodup := hs.imp (fun h => ne_of_lt h)
  have hkeys : ∀ h : Outcome → Option Rat, Dict.keys (domain.map (fun x => (x, h x))) = domain := by
    intro h; simp [Dict.keys, Function.comp_def]
  obtain ⟨c, h2, h3, h4⟩ := mkCpd_dist (kind := .stochastic) (v := v)
    (f := fun pv => .ok (.dist (domain.map (fun x => (x, some (δ pv x)))))) (domain := domain)
    (ps := ps) (dom := dom) (card := cardOf dom) (δ := fun vals => δ (pvOf ps vals)) hn hne
    (fun p hp => by obtain ⟨d, q, _⟩ := hps p hp; exact ⟨d, q, by simp [cardOf, q]⟩)
    (fun vals _ => ⟨_, rfl, by rw [hkeys]; exact hn, fun x hx => by rw [hkeys] at hx; exact hx,
      fun x hx => by
        simp only [given, get?_map_pair (h := fun x => some (δ (pvOf ps vals) x)), hx, if_true, Option.join_some, Option.getD_some]⟩)
    h0 h1
  rw [mkCpd_ok_iff] at h2
  obtain ⟨ds, possible, domain', cards, cols, e1, e2, e3, e4, e5, e6, e7, e8, e9, rfl⟩ := h2
  simp only at h3 h4
  subst h3
  refine ⟨⟨v, domain', ps, cards, cols, .stochastic, fun pv => .ok (.dist (domain'.map (fun x => (x, some (δ pv x))))), none⟩, ?_, rfl, h4⟩
  rw [mkCpd_ok_iff]
  have hpos : possible = domain' := by
    unfold possibleValues at e2
    split at e2
    · simp at e2
    · rename_i dd hdd
      simp only [Except.ok.injEq] at e2
      subst e2
      have hmem : ∀ x, x ∈ (dd.flatMap Dict.keys).dedup.insertionSort (· ≤ ·) ↔ x ∈ domain' := by
        intro x
        rw [List.mem_insertionSort, List.mem_dedup]
        constructor
        · intro hx
          obtain ⟨d, hd, hx⟩ := List.mem_flatMap.1 hx
          obtain ⟨pv, _, hpv⟩ := mapPy_mem' hdd hd
          simp only [stochasticFunction, Except.ok.injEq] at hpv
          subst hpv
          rw [hkeys] at hx
          exact hx
        · intro hx
          obtain ⟨pv, hpv⟩ : ∃ pv, pv ∈ (product ds).map (pvOf ps) := by
            have : ∀ (ds : List (List Outcome)), (∀ d ∈ ds, d ≠ []) → ∃ y, y ∈ product ds := by
              intro ds
              induction ds with
              | nil => intro _; exact ⟨[], by simp [product]⟩
              | cons d ds ih =>
                intro h
                obtain ⟨y, hy⟩ := ih (fun e he => h e (by simp [he]))
                obtain ⟨z, hz⟩ := List.exists_mem_of_ne_nil d (h d (by simp))
                exact ⟨z :: y, by simp only [product, List.mem_flatMap, List.mem_map]; exact ⟨z, hz, y, hy, rfl⟩⟩
            obtain ⟨y, hy⟩ := this ds (fun d hd => by
              have := parentDoms_ok.1 e1
              obtain ⟨p, hp, hpd⟩ := mapPy_mem' e1 hd
              obtain ⟨d', q1, q2⟩ := hps p hp
              rw [domOf_ok, q1] at hpd
              cases hpd
              exact q2)
            exact ⟨pvOf ps y, List.mem_map.2 ⟨y, hy, rfl⟩⟩
          obtain ⟨d, hd, hdv⟩ := mapPy_mem hdd hpv
          simp only [stochasticFunction, Except.ok.injEq] at hdv
          subst hdv
          exact List.mem_flatMap.2 ⟨_, hd, by rw [hkeys]; exact hx⟩
      have hs' : ((dd.flatMap Dict.keys).dedup.insertionSort (· ≤ ·)).Pairwise (· < ·) := by
        have h1 : ((dd.flatMap Dict.keys).dedup.insertionSort (· ≤ ·)).Pairwise (· ≤ ·) := List.pairwise_insertionSort _ _
        have h2 : ((dd.flatMap Dict.keys).dedup.insertionSort (· ≤ ·)).Nodup :=
          (List.perm_insertionSort _ _).nodup_iff.2 (List.nodup_dedup _)
        exact (h1.and h2).imp (fun h => lt_of_le_of_ne h.1 h.2)
      exact hs'.eq_of_mem_iff hs hmem
  exact ⟨ds, possible, domain', cards, cols, e1, e2, by simp [chooseDomain, truthy, hpos], e4, e5, e6, e7, e8, e9, rfl⟩

namespace Net

open Classical in
/-- Sorted domains and conditional distributions of the nodes outside `free` are given; the nodes in `free` get their domains only. -/
theorem parameterise {net : Net} (hf : net.Fresh) (hw : net.g.WF) {dom : Node → List Outcome} {σ : Node → Assign → Rat} {free : Node → Prop}
    (hs : ∀ v, (dom v).Pairwise (· < ·)) (hne : ∀ v, dom v ≠ [])
    (hσ : ∀ v ∈ net.g.nodes, BN.IsRule ⟨net.g, dom, σ⟩ v (σ v)) :
    ∃ rels net', net.addCpds rels = (net', .ok ()) ∧ net'.m = net.m ∧ net'.base = net.base ∧ net'.Good ∧ net'.Normalised ∧
      (∀ v ∈ net.g.nodes, net'.dom v = dom v) ∧ (∀ v ∈ net.g.nodes, (net'.undecided v = true ↔ free v)) ∧
      (∀ v ∈ net.g.nodes, ¬ free v → ∀ a, net'.InDom a → net'.kernel v a = σ v a) ∧
      (net.m.Consistent → net.base = Macid.new ∨ net.base = Macid.newCid → net.Staffed → net'.Usable) := by
  let D : Dict Node (List Outcome) := net.g.nodes.map (fun v => (v, dom v))
  have hD : ∀ v ∈ net.g.nodes, D.get? v = some (dom v) := by
    intro v hv
    simp only [D]
    rw [get?_map_pair (h := dom), if_pos hv]
  have hpn : ∀ v, (net.g.parents v).Nodup := fun v => Graph.nodup_parents hw.edgesNodup v
  have hpar : ∀ {p v}, p ∈ net.g.parents v → p ∈ net.g.nodes := fun hp => (hw.edgeNodes _ _ (Graph.mem_parents.1 hp)).1
  let F : Node → Func := fun v pv => .ok (.dist ((dom v).map (fun x => (x, some (σ v (Assign.upd (fun p => (pv p).getD 0) v x))))))
  let rel : Node → Rel := fun v => if free v then .seq (dom v) else .func (F v)
  have hin : ∀ v vals, Instantiation (net.g.parents v) D vals → ∃ a, vals = (net.g.parents v).map a ∧
      ∀ p, net.g.Edge p v → a p ∈ dom p := by
    intro v vals hv
    obtain ⟨a, rfl, _⟩ := exists_assign (hpn v) hv
    refine ⟨a, rfl, fun p hp => ?_⟩
    unfold Instantiation at hv
    rw [List.forall₂_map_right_iff, List.forall₂_same] at hv
    obtain ⟨l, h1, h2⟩ := hv p (Graph.mem_parents.2 hp)
    rw [hD p (hpar (Graph.mem_parents.2 hp))] at h1
    cases h1
    exact h2
  have hval : ∀ v ∈ net.g.nodes, ∀ (a : Assign) x, σ v (Assign.upd (fun p => (pvOf (net.g.parents v) ((net.g.parents v).map a) p).getD 0) v x) =
      σ v (Assign.upd a v x) := by
    intro v hv a x
    refine (hσ v hv).scope _ _ (fun u hu => ?_)
    rcases hu with rfl | hu
    · simp
    · have hud : u ≠ v := by rintro rfl; exact hw.acyclic u (.single hu)
      rw [Assign.upd_ne _ _ hud, Assign.upd_ne _ _ hud, pvOf_map]
      simp [restrict, Graph.mem_parents.2 hu]
  have hcpd : ∀ v ∈ net.g.nodes, ∃ c, computed net.g D v (rel v) = .ok c ∧ c.domain = dom v ∧ (c.kind = .decision ↔ free v) ∧
      c.Fits net.g D v ∧ c.WellFormed ∧ (¬ free v → ∀ vals, Instantiation (net.g.parents v) D vals → ∀ x ∈ dom v,
        c.prob D vals x = some (σ v (Assign.upd (fun p => (pvOf (net.g.parents v) vals p).getD 0) v x))) ∧
      (∀ vals, Instantiation (net.g.parents v) D vals → (∀ x ∈ dom v, ∃ y, c.prob D vals x = some y ∧ 0 ≤ y) ∧
        ((dom v).map (fun x => (c.prob D vals x).getD 0)).sum = 1) ∧ c.evidence = net.g.parents v := by
    intro v hv
    have hps : ∀ p ∈ net.g.parents v, ∃ d, D.get? p = some d ∧ d ≠ [] := fun p hp => ⟨_, hD p (hpar hp), hne p⟩
    have hn : (dom v).Nodup := (hs v).imp (fun h => ne_of_lt h)
    by_cases hfree : free v
    · obtain ⟨c, h1, h2, h3⟩ := mkCpd_dist (kind := .decision) (v := v) (f := constFunc []) (domain := dom v) (ps := net.g.parents v) (dom := D)
        (card := cardOf D) (δ := fun _ _ => 1 / ((dom v).length : Rat)) hn (hne v)
        (fun p hp => by obtain ⟨d, q, _⟩ := hps p hp; exact ⟨d, q, by simp [cardOf, q]⟩)
        (fun vals _ => ⟨[], rfl, by simp [Dict.keys], by simp [Dict.keys], fun x hx => by
          have : unspecified (dom v) [] = dom v := by
            simp [unspecified, hn.dedup, given, Dict.get?]
          simp [given, Dict.get?, givenMass, this]⟩)
        (fun vals _ x _ => by positivity)
        (fun vals _ => by
          rw [List.map_const', List.sum_replicate, nsmul_eq_mul]
          have : ((dom v).length : Rat) ≠ 0 := by simpa using hne v
          field_simp)
      refine ⟨c, by simp only [rel, if_pos hfree]; exact h1, h2, ?_, mkCpd_fits h1, mkCpd_wf h1 (hpn v) (by rw [h2]; exact hne v), fun q => absurd hfree q, ?_,
        (mkCpd_fields h1).2.1⟩
      · simp [(mkCpd_fields h1).2.2.1, hfree]
      · intro vals hvals
        refine ⟨fun x hx => ⟨_, h3 vals hvals x hx, by positivity⟩, ?_⟩
        rw [List.map_congr_left (fun x hx => by rw [h3 vals hvals x hx]; rfl : ∀ x ∈ dom v, (c.prob D vals x).getD 0 = (fun _ => 1 / ((dom v).length : Rat)) x)]
        rw [List.map_const', List.sum_replicate, nsmul_eq_mul]
        have : ((dom v).length : Rat) ≠ 0 := by simpa using hne v
        field_simp
    · have q0 : ∀ vals, Instantiation (net.g.parents v) D vals → ∀ x ∈ dom v,
          0 ≤ σ v (Assign.upd (fun p => (pvOf (net.g.parents v) vals p).getD 0) v x) := by
        intro vals hvals x hx
        obtain ⟨a, rfl, ha⟩ := hin v vals hvals
        rw [hval v hv]
        apply (hσ v hv).nonneg
        rintro u (rfl | hu)
        · rw [Assign.upd_same]; exact hx
        · have hud : u ≠ v := by rintro rfl; exact hw.acyclic u (.single hu)
          rw [Assign.upd_ne _ _ hud]; exact ha u hu
      have q1 : ∀ vals, Instantiation (net.g.parents v) D vals →
          ((dom v).map (fun x => σ v (Assign.upd (fun p => (pvOf (net.g.parents v) vals p).getD 0) v x))).sum = 1 := by
        intro vals hvals
        obtain ⟨a, rfl, ha⟩ := hin v vals hvals
        rw [List.map_congr_left (fun x _ => hval v hv a x)]
        exact (hσ v hv).norm a ha
      obtain ⟨c, h1, h2, h3⟩ := mkCpd_full (v := v) (domain := dom v) (ps := net.g.parents v) (dom := D)
        (δ := fun pv x => σ v (Assign.upd (fun p => (pv p).getD 0) v x)) (hs v) (hne v) hps q0 q1
      refine ⟨c, by simp only [rel, if_neg hfree]; exact h1, h2, ?_, mkCpd_fits h1, mkCpd_wf h1 (hpn v) (by rw [h2]; exact hne v), fun _ => h3, ?_,
        (mkCpd_fields h1).2.1⟩
      · simp [(mkCpd_fields h1).2.2.1, hfree]
      · intro vals hvals
        refine ⟨fun x hx => ⟨_, h3 vals hvals x hx, q0 vals hvals x hx⟩, ?_⟩
        rw [List.map_congr_left (fun x hx => by rw [h3 vals hvals x hx]; rfl :
          ∀ x ∈ dom v, (c.prob D vals x).getD 0 = σ v (Assign.upd (fun p => (pvOf (net.g.parents v) vals p).getD 0) v x))]
        exact q1 vals hvals
  let C : Node → Cpd := fun v => if h : ∃ c, computed net.g D v (rel v) = .ok c then h.choose else ⟨v, [], [], [], [], .tabular, constFunc [], none⟩
  have hC : ∀ v ∈ net.g.nodes, computed net.g D v (rel v) = .ok (C v) := by
    intro v hv
    obtain ⟨c, hc, _⟩ := hcpd v hv
    have hex : ∃ c, computed net.g D v (rel v) = .ok c := ⟨c, hc⟩
    have : C v = hex.choose := dif_pos hex
    rw [this]
    exact hex.choose_spec
  have hCp : ∀ v ∈ net.g.nodes, (C v).domain = dom v ∧ ((C v).kind = .decision ↔ free v) ∧
      (C v).Fits net.g D v ∧ (C v).WellFormed ∧ (¬ free v → ∀ vals, Instantiation (net.g.parents v) D vals → ∀ x ∈ dom v,
        (C v).prob D vals x = some (σ v (Assign.upd (fun p => (pvOf (net.g.parents v) vals p).getD 0) v x))) ∧
      (∀ vals, Instantiation (net.g.parents v) D vals → (∀ x ∈ dom v, ∃ y, (C v).prob D vals x = some y ∧ 0 ≤ y) ∧
        ((dom v).map (fun x => ((C v).prob D vals x).getD 0)).sum = 1) ∧ (C v).evidence = net.g.parents v := by
    intro v hv
    obtain ⟨c, c1, c2⟩ := hcpd v hv
    have := hC v hv
    rw [c1] at this
    cases this
    exact c2
  let l : List (Node × Rel) := net.g.nodes.map (fun v => (v, rel v))
  have hl1 : l.map (·.1) = net.g.nodes := by simp [l, Function.comp_def]
  have hlg : ∀ v r, Dict.get? l v = some r → v ∈ net.g.nodes ∧ r = rel v := by
    intro v r h
    have := Dict.mem_of_get? h
    simp only [l, List.mem_map, Prod.mk.injEq] at this
    obtain ⟨w, hw1, rfl, rfl⟩ := this
    exact ⟨hw1, rfl⟩
  obtain ⟨net', a1, a2, a3, a4, a5, a6⟩ := assemble hf hw (C := C) (D := D) (l := l) (fun v hv => by rw [hD v hv, (hCp v hv).1])
    (by rw [hl1]; exact hw.nodesNodup)
    (fun v => by rw [hl1]) (fun v r hv => by obtain ⟨q1, rfl⟩ := hlg v r hv; exact hC v q1) (fun v hv => (hCp v hv).2.2.1) (fun v hv => (hCp v hv).2.2.2.1)
  have hgood : net'.Good := by
    refine a6 (fun v c1 hv hk => ?_)
    obtain ⟨_, q⟩ := hlg v _ hv
    simp only [rel] at q
    split at q <;> simp at q
  have hg : net'.g = net.g := congrArg Macid.g a2
  have hdom : ∀ v ∈ net.g.nodes, net'.dom v = dom v := by
    intro v hv
    have := (a4 v hv).2
    rw [hD v hv] at this
    exact dom_eq this
  have hinst : ∀ v ∈ net.g.nodes, ∀ a : Assign, (∀ p, net.g.Edge p v → a p ∈ dom p) → Instantiation (net.g.parents v) D ((net.g.parents v).map a) := by
    intro v hv a ha
    unfold Instantiation
    rw [List.forall₂_map_right_iff, List.forall₂_same]
    intro p hp
    exact ⟨dom p, hD p (hpar hp), ha p (Graph.mem_parents.1 hp)⟩
  have hker : ∀ v ∈ net.g.nodes, ∀ a : Assign, net'.kernel v a = ((C v).prob D ((net.g.parents v).map a) (a v)).getD 0 := by
    intro v hv a
    unfold kernel
    rw [(a4 v hv).1]
    simp only
    rw [(hCp v hv).2.2.2.2.2.2, prob_congr (dom := D) (dom' := net'.domain) (c := C v) (fun p hp => by
      rw [(hCp v hv).2.2.2.2.2.2] at hp
      exact (a4 p (hpar hp)).2)]
  have hn : net'.Normalised := by
    intro v hv a ha
    rw [hg] at hv
    have hpa : ∀ p, net.g.Edge p v → a p ∈ dom p := fun p hp => by
      have hpn := (hw.edgeNodes p v hp).1
      rw [← hdom p hpn]
      exact ha p (by rw [hg]; exact hpn)
    obtain ⟨q1, q2⟩ := (hCp v hv).2.2.2.2.2.1 _ (hinst v hv a hpa)
    refine ⟨?_, ?_⟩
    · rw [hker v hv]
      obtain ⟨y, hy1, hy2⟩ := q1 (a v) (by rw [← hdom v hv]; exact ha v (by rw [hg]; exact hv))
      rw [hy1]
      exact hy2
    · rw [hdom v hv, ← q2]
      congr 1
      apply List.map_congr_left
      intro x _
      rw [hker v hv, Assign.upd_same]
      congr 2
      apply List.map_congr_left
      intro p hp
      rw [Assign.upd_ne]
      rintro rfl
      exact hw.acyclic p (.single (Graph.mem_parents.1 hp))
  refine ⟨l, net', a1, a2, a3, hgood, hn, hdom, fun v hv => ?_, fun v hv hnf a ha => ?_, fun hm hb hst => ?_⟩
  · unfold undecided
    rw [(a4 v hv).1]
    simpa using (hCp v hv).2.1
  · have hpa : ∀ p, net.g.Edge p v → a p ∈ dom p := fun p hp => by
      have hpn := (hw.edgeNodes p v hp).1
      rw [← hdom p hpn]
      exact ha p (by rw [hg]; exact hpn)
    rw [hker v hv, (hCp v hv).2.2.2.2.1 hnf _ (hinst v hv a hpa) (a v) (by rw [← hdom v hv]; exact ha v (by rw [hg]; exact hv)), hval v hv,
      Assign.upd_self]
    rfl
  · refine ⟨hgood, hn, by rw [a2]; exact hm, by rw [a3]; exact hb, ?_⟩
    refine ⟨fun a => by rw [a2]; exact hst.both a, fun a ha => ?_⟩
    rw [a2] at ha ⊢
    rw [a3]
    exact hst.owns a ha

end Net
end Verif

import Verif.Lemmas.Parameterise
import Verif.Props.Cpd
import Verif.Spec.Total

/-!
# Relationships that always make sense can always be assigned
-/

namespace Verif

open Graph Relation Macid

theorem unspecified_pos {domain : List Outcome} {d : Dict Outcome (Option Rat)} (hk : ∀ x ∈ d.keys, x ∈ domain)
    (h : ∃ x ∈ d.keys, given d x = none) : ((unspecified domain d).length : Rat) ≠ 0 := by
  obtain ⟨x, hx, hg⟩ := h
  have : x ∈ unspecified domain d := by
    unfold unspecified
    rw [List.mem_filter]
    exact ⟨hk x hx, by simp [hg]⟩
  have := List.length_pos_of_mem this
  exact_mod_cast this.ne'

theorem share_sum {domain : List Outcome} (hn : domain.Nodup) {d : Dict Outcome (Option Rat)} (hp : ProperDist d)
    (hk : ∀ x ∈ d.keys, x ∈ domain) : (domain.map (share domain d)).sum = 1 := by
  have : domain.map (share domain d) = domain.map (fun x => (given d x).getD ((1 - givenMass d) / (unspecified domain d).length)) := rfl
  rw [this, sum_given_getD, sum_get?_getD hn hp.keys hk]
  rcases hp.mass with h | ⟨_, h⟩
  · simp [h]
  · have := unspecified_pos hk h
    rw [show (List.filter (fun x => (given d x).isNone) domain) = unspecified domain d from rfl]
    field_simp
    ring

theorem share_nonneg {domain : List Outcome} {d : Dict Outcome (Option Rat)} (hp : ProperDist d) (x : Outcome) :
    0 ≤ share domain d x := by
  unfold share
  cases h : given d x with
  | some p => exact hp.nonneg x p h
  | none =>
    have : givenMass d ≤ 1 := by
      rcases hp.mass with h | ⟨h, _⟩
      · exact h.le
      · exact h
    simp only [Option.getD_none]
    exact div_nonneg (by linarith) (by positivity)

theorem exists_inst {ps : List Node} {dom : Dict Node (List Outcome)} (hps : ∀ p ∈ ps, ∃ d, dom.get? p = some d ∧ d ≠ []) :
    ∃ vals, Instantiation ps dom vals := by
  induction ps with
  | nil => exact ⟨[], .nil⟩
  | cons p ps ih =>
    obtain ⟨vals, hv⟩ := ih (fun q hq => hps q (by simp [hq]))
    obtain ⟨d, h1, h2⟩ := hps p (by simp)
    obtain ⟨z, hz⟩ := List.exists_mem_of_ne_nil d h2
    exact ⟨z :: vals, .cons ⟨d, h1, hz⟩ hv⟩

theorem ProperDist.ne_nil {d : Dict Outcome (Option Rat)} (h : ProperDist d) : d.keys ≠ [] := by
  intro e
  have hd : d = [] := by
    cases d with
    | nil => rfl
    | cons a l => simp [Dict.keys] at e
  subst hd
  rcases h.mass with h | ⟨_, x, hx, _⟩
  · simp [givenMass] at h
  · simp [Dict.keys] at hx

/-- a function that returns proper distributions whatever its arguments makes a CPD -/
theorem mkCpd_total {kind : CpdKind} {v : Node} {f : Func} {ps : List Node} {dom : Dict Node (List Outcome)}
    (hps : ∀ p ∈ ps, ∃ d, dom.get? p = some d ∧ d ≠ [])
    (hf : ∀ vals, Instantiation ps dom vals → ∃ d, Returns f (pvOf ps vals) d ∧ ProperDist d) :
    ∃ c, mkCpd kind v f none ps dom (cardOf dom) = .ok c ∧ c.domain ≠ [] ∧
      ∀ vals, Instantiation ps dom vals → ∀ d, Returns f (pvOf ps vals) d → ∀ x ∈ c.domain,
        c.prob dom vals x = some (share c.domain d x) := by
  obtain ⟨ds, hds, _⟩ := mapPy_ok (f := domOf dom) (xs := ps) (fun p hp => by
    obtain ⟨d, h, _⟩ := hps p hp
    exact ⟨d, domOf_ok.2 h⟩)
  have hds' : parentDoms ps dom = .ok ds := hds
  obtain ⟨possible, hpos⟩ : ∃ possible, possibleValues f ((product ds).map (pvOf ps)) = .ok possible := by
    obtain ⟨ys, hy, _⟩ := mapPy_ok (f := stochasticFunction f) (xs := (product ds).map (pvOf ps)) (by
      intro pv hpv
      obtain ⟨vals, hv, rfl⟩ := List.mem_map.1 hpv
      obtain ⟨d, hr, _⟩ := hf vals ((inst_iff (parentDoms_ok.1 hds')).1 hv)
      exact ⟨d, stochasticFunction_ok.2 hr⟩)
    exact ⟨_, by unfold possibleValues; rw [hy]⟩
  obtain ⟨hsort, hmem⟩ := possibleValues_mem hds' hpos
  have hnd : possible.Nodup := hsort.imp (fun h => ne_of_lt h)
  have hne : possible ≠ [] := by
    obtain ⟨vals, hv⟩ := exists_inst hps
    obtain ⟨d, hr, hp⟩ := hf vals hv
    obtain ⟨x, hx⟩ := List.exists_mem_of_ne_nil _ hp.ne_nil
    exact List.ne_nil_of_mem ((hmem x).2 ⟨vals, d, hv, hr, hx⟩)
  let g : Func := fun pv => match stochasticFunction f pv with | .ok d => .ok (.dist d) | .error e => .error e
  have hg : stochasticFunction g = stochasticFunction f := by
    funext pv
    simp only [g, stochasticFunction]
    cases f pv with
    | error e => rfl
    | ok r => cases r <;> rfl
  let δ : List Outcome → Outcome → Rat := fun vals x =>
    match stochasticFunction f (pvOf ps vals) with | .ok d => share possible d x | .error _ => 0
  have hδ : ∀ vals d, Returns f (pvOf ps vals) d → δ vals = share possible d := by
    intro vals d hr
    funext x
    simp only [δ, stochasticFunction_ok.2 hr]
  have hsub : ∀ vals, Instantiation ps dom vals → ∀ d, Returns f (pvOf ps vals) d → ∀ x ∈ d.keys, x ∈ possible :=
    fun vals hv d hr x hx => (hmem x).2 ⟨vals, d, hv, hr, hx⟩
  obtain ⟨c, h1, h2, h3⟩ := mkCpd_dist (kind := kind) (v := v) (f := g) (domain := possible) (ps := ps) (dom := dom) (card := cardOf dom)
    (δ := δ) hnd hne (fun p hp => by obtain ⟨d, q, _⟩ := hps p hp; exact ⟨d, q, by simp [cardOf, q]⟩)
    (fun vals hv => by
      obtain ⟨d, hr, hp⟩ := hf vals hv
      refine ⟨d, ?_, hp.keys, hsub vals hv d hr, fun x _ => by rw [hδ vals d hr]; rfl⟩
      simp only [g, stochasticFunction_ok.2 hr])
    (fun vals hv x _ => by
      obtain ⟨d, hr, hp⟩ := hf vals hv
      rw [hδ vals d hr]
      exact share_nonneg hp x)
    (fun vals hv => by
      obtain ⟨d, hr, hp⟩ := hf vals hv
      rw [hδ vals d hr]
      exact share_sum hnd hp (hsub vals hv d hr))
  rw [mkCpd_ok_iff] at h1
  obtain ⟨ds', possible', domain', cards, cols, e1, e2, e3, e4, e5, e6, e7, e8, e9, rfl⟩ := h1
  simp only at h2 h3
  subst h2
  rw [hds'] at e1
  cases e1
  have hcol : colFor g domain' = colFor f domain' := by
    funext pv
    simp only [colFor, hg]
  refine ⟨⟨v, domain', ps, cards, cols, kind, f, none⟩, ?_, hne, ?_⟩
  · rw [mkCpd_ok_iff]
    exact ⟨ds, domain', domain', cards, cols, hds', hpos, by simp [chooseDomain, truthy], e4, by rw [← hcol]; exact e5, e6, e7, e8, e9, rfl⟩
  · intro vals hv d hr x hx
    rw [← hδ vals d hr]
    exact h3 vals hv x hx

theorem share_nil {domain : List Outcome} (x : Outcome) : share domain [] x = 1 / (domain.length : Rat) := by
  have : unspecified domain [] = domain := by simp [unspecified, given, Dict.get?]
  simp [share, given, Dict.get?, givenMass, this]

/-- the parents of `v` have the domains in `D` and `a` takes their values from them -/
def Within (g : Graph) (D : Dict Node (List Outcome)) (v : Node) (a : Assign) : Prop :=
  ∀ p, g.Edge p v → ∃ d, D.get? p = some d ∧ a p ∈ d

/-- what the CPD made from a relationship is like -/
structure MadeBy (g : Graph) (D : Dict Node (List Outcome)) (v : Node) (r : Rel) (c : Cpd) : Prop where
  made : computed g D v r = .ok c
  nonempty : c.domain ≠ []
  fits : c.Fits g D v
  wf : c.WellFormed
  evidence : c.evidence = g.parents v
  prob : ∀ a, Within g D v a → ∃ d, r.Says (argsOf g v a) d ∧ (∀ x ∈ c.domain,
    c.prob D ((g.parents v).map a) x = some (share c.domain d x)) ∧ (∀ x, 0 ≤ share c.domain d x) ∧ (c.domain.map (share c.domain d)).sum = 1
  listed : ∀ l, r = .seq l → c.domain = l
  inferred : (∀ l, r ≠ .seq l) → c.domain.Pairwise (· < ·) ∧
    ∀ x, x ∈ c.domain ↔ ∃ a d, Within g D v a ∧ r.Says (argsOf g v a) d ∧ x ∈ d.keys

theorem within_inst {g : Graph} {D : Dict Node (List Outcome)} {v : Node} {a : Assign} (h : Within g D v a) :
    Instantiation (g.parents v) D ((g.parents v).map a) :=
  inst_of_inDoms (fun p hp => h p (Graph.mem_parents.1 hp))

theorem made_func {g : Graph} (hw : g.WF) {D : Dict Node (List Outcome)} {v : Node} {r : Rel} {kind : CpdKind} {f : Func}
    (hps : ∀ p, g.Edge p v → ∃ d, D.get? p = some d ∧ d ≠ [])
    (hcomp : computed g D v r = mkCpd kind v f none (g.parents v) D (cardOf D)) (hseq : ∀ l, r ≠ .seq l)
    (hsays : ∀ a, Within g D v a → ∀ d, r.Says (argsOf g v a) d ↔ Returns f (argsOf g v a) d)
    (hf : ∀ a, Within g D v a → ∃ d, Returns f (argsOf g v a) d ∧ ProperDist d) :
    ∃ c, MadeBy g D v r c := by
  have hpn : (g.parents v).Nodup := Graph.nodup_parents hw.edgesNodup v
  have hin : ∀ vals, Instantiation (g.parents v) D vals → ∃ a, vals = (g.parents v).map a ∧ Within g D v a := by
    intro vals hv
    obtain ⟨a, rfl, ha⟩ := exists_assign hpn hv
    exact ⟨a, rfl, fun p hp => ha p (Graph.mem_parents.2 hp)⟩
  have hargs : ∀ a, pvOf (g.parents v) ((g.parents v).map a) = argsOf g v a := fun a => pvOf_map _ a
  obtain ⟨c, h1, h2, h3⟩ := mkCpd_total (kind := kind) (v := v) (f := f) (ps := g.parents v) (dom := D)
    (fun p hp => hps p (Graph.mem_parents.1 hp)) (fun vals hv => by
      obtain ⟨a, rfl, ha⟩ := hin vals hv
      rw [hargs]
      exact hf a ha)
  obtain ⟨i1, i2⟩ := C25_inferred_domain h1 (.inl rfl)
  have hmem : ∀ x, x ∈ c.domain ↔ ∃ a d, Within g D v a ∧ Returns f (argsOf g v a) d ∧ x ∈ d.keys := by
    intro x
    rw [i2]
    constructor
    · rintro ⟨vals, d, q1, q2, q3⟩
      obtain ⟨a, rfl, ha⟩ := hin vals q1
      exact ⟨a, d, ha, by rw [← hargs]; exact q2, q3⟩
    · rintro ⟨a, d, q1, q2, q3⟩
      exact ⟨_, d, within_inst q1, by rw [hargs]; exact q2, q3⟩
  refine ⟨c, ⟨hcomp.trans h1, h2, mkCpd_fits h1, mkCpd_wf h1 hpn h2, (mkCpd_fields h1).2.1, fun a ha => ?_, fun l hl => absurd hl (hseq l), fun _ => ⟨i1, fun x => ?_⟩⟩⟩
  · obtain ⟨d, hd, hp⟩ := hf a ha
    refine ⟨d, (hsays a ha d).2 hd, fun x hx => h3 _ (within_inst ha) d (by rw [hargs]; exact hd) x hx, share_nonneg hp, ?_⟩
    exact share_sum (i1.imp (fun h => ne_of_lt h)) hp (fun x hx => (hmem x).2 ⟨a, d, ha, hd, hx⟩)
  · rw [hmem]
    constructor
    · rintro ⟨a, d, q1, q2, q3⟩; exact ⟨a, d, q1, (hsays a q1 d).2 q2, q3⟩
    · rintro ⟨a, d, q1, q2, q3⟩; exact ⟨a, d, q1, (hsays a q1 d).1 q2, q3⟩

/-- the CPD of one relationship, when the parents have domains of announced outcomes -/
theorem made_total {g : Graph} (hw : g.WF) {D : Dict Node (List Outcome)} {T : Node → List Outcome} {v : Node} {r : Rel}
    (hps : ∀ p, g.Edge p v → ∃ d, D.get? p = some d ∧ d ≠ [] ∧ ∀ x ∈ d, x ∈ T p) (hr : r.Respects g T v) :
    ∃ c, MadeBy g D v r c ∧ ∀ x ∈ c.domain, x ∈ T v := by
  have hps' : ∀ p, g.Edge p v → ∃ d, D.get? p = some d ∧ d ≠ [] := fun p hp => by
    obtain ⟨d, h1, h2, _⟩ := hps p hp
    exact ⟨d, h1, h2⟩
  have hcalled : ∀ a, Within g D v a → CalledWith g T v (argsOf g v a) := by
    intro a ha p
    constructor
    · intro hp
      obtain ⟨d, h1, h2⟩ := ha p hp
      obtain ⟨d', h1', _, h3⟩ := hps p hp
      rw [h1] at h1'
      cases h1'
      exact ⟨a p, h3 _ h2, by simp [argsOf, Graph.mem_parents.2 hp]⟩
    · intro hp
      have : p ∉ g.parents v := fun h => hp (Graph.mem_parents.1 h)
      simp [argsOf, this]
  cases r with
  | tab c => exact hr.elim
  | func f =>
    obtain ⟨c, hc⟩ := made_func (kind := .stochastic) hw hps' (r := .func f) (f := f) rfl (by simp) (fun _ _ _ => Iff.rfl)
      (fun a ha => by obtain ⟨d, h1, h2, _⟩ := hr _ (hcalled a ha); exact ⟨d, h1, h2⟩)
    refine ⟨c, hc, fun x hx => ?_⟩
    obtain ⟨a, d, q1, q2, q3⟩ := ((hc.inferred (by simp)).2 x).1 hx
    obtain ⟨d', h1, _, h3⟩ := hr _ (hcalled a q1)
    rw [Returns.unique q2 h1] at q3
    exact h3 x q3
  | dist d0 =>
    have hret : ∀ a d, Returns (constFunc d0) (argsOf g v a) d ↔ d = d0 := by
      intro a d
      simp [Returns, constFunc, eq_comm]
    obtain ⟨c, hc⟩ := made_func (kind := .constant) hw hps' (r := .dist d0) (f := constFunc d0) rfl (by simp)
      (fun a _ d => by rw [hret]; rfl) (fun a ha => ⟨d0, (hret a d0).2 rfl, hr.1⟩)
    refine ⟨c, hc, fun x hx => ?_⟩
    obtain ⟨a, d, q1, q2, q3⟩ := ((hc.inferred (by simp)).2 x).1 hx
    cases q2
    exact hr.2 x q3
  | seq l =>
    obtain ⟨hne, hn, hT⟩ := hr
    have hpn : (g.parents v).Nodup := Graph.nodup_parents hw.edgesNodup v
    have hl : (l.length : Rat) ≠ 0 := by simpa using hne
    have hsum : (l.map (share l [])).sum = 1 := by
      have : l.map (share l []) = l.map (fun _ => 1 / (l.length : Rat)) := List.map_congr_left (fun x _ => share_nil x)
      rw [this, List.map_const', List.sum_replicate, nsmul_eq_mul]
      field_simp
    have h0 : ∀ x, 0 ≤ share l [] x := fun x => by rw [share_nil]; positivity
    obtain ⟨c, h1, h2, h3⟩ := mkCpd_dist (kind := .decision) (v := v) (f := constFunc []) (domain := l) (ps := g.parents v) (dom := D)
        (card := cardOf D) (δ := fun _ => share l []) hn hne
        (fun p hp => by obtain ⟨d, q, _⟩ := hps p (Graph.mem_parents.1 hp); exact ⟨d, q, by simp [cardOf, q]⟩)
        (fun vals _ => ⟨[], rfl, by simp [Dict.keys], by simp [Dict.keys], fun x _ => rfl⟩)
        (fun _ _ x _ => h0 x) (fun _ _ => hsum)
    refine ⟨c, ⟨h1, by rw [h2]; exact hne, mkCpd_fits h1, mkCpd_wf h1 hpn (by rw [h2]; exact hne), (mkCpd_fields h1).2.1, fun a ha => ?_, ?_, fun h => absurd rfl (h l)⟩, ?_⟩
    · exact ⟨[], rfl, fun x hx => by rw [h2] at hx ⊢; exact h3 _ (within_inst ha) x hx, by rw [h2]; exact h0, by rw [h2]; exact hsum⟩
    · intro l' e
      cases e
      exact h2
    · rw [h2]; exact hT

namespace Net

open Classical in
/-- The CPDs of a whole network, found parents first. -/
theorem exists_made {g : Graph} (hw : g.WF) {T : Node → List Outcome} {rel : Node → Rel} (hr : ∀ v ∈ g.nodes, (rel v).Respects g T v) :
    ∃ C : Node → Cpd, ∀ v ∈ g.nodes, MadeBy g (g.nodes.map (fun u => (u, (C u).domain))) v (rel v) (C v) ∧ ∀ x ∈ (C v).domain, x ∈ T v := by
  obtain ⟨h, hdec, hle⟩ := exists_rank hw
  let k : Node → Nat := fun v => g.nodes.length - h v
  have hk : ∀ u v, g.Edge u v → k u < k v := by
    intro u v e
    have := hdec u v e
    have := hle u
    simp only [k]
    omega
  have hkn : ∀ v, k v < g.nodes.length + 1 := fun v => by simp only [k]; omega
  have hD : ∀ (C : Node → Cpd) v, v ∈ g.nodes → Dict.get? (g.nodes.map (fun u => (u, (C u).domain))) v = some (C v).domain := by
    intro C v hv
    rw [get?_map_pair (h := fun u => (C u).domain), if_pos hv]
  have step : ∀ n, ∃ C : Node → Cpd, ∀ v ∈ g.nodes, k v < n →
      MadeBy g (g.nodes.map (fun u => (u, (C u).domain))) v (rel v) (C v) ∧ ∀ x ∈ (C v).domain, x ∈ T v := by
    intro n
    induction n with
    | zero => exact ⟨fun v => ⟨v, [], [], [], [], .tabular, constFunc [], none⟩, fun v _ h => absurd h (by omega)⟩
    | succ n ih =>
      obtain ⟨C, hC⟩ := ih
      have hex : ∀ v ∈ g.nodes, k v ≤ n → ∃ c, MadeBy g (g.nodes.map (fun u => (u, (C u).domain))) v (rel v) c ∧ ∀ x ∈ c.domain, x ∈ T v := by
        intro v hv hkv
        refine made_total hw (fun p hp => ?_) (hr v hv)
        have hpn := (hw.edgeNodes p v hp).1
        obtain ⟨m, hm⟩ := hC p hpn (by have := hk p v hp; omega)
        exact ⟨_, hD C p hpn, m.nonempty, hm⟩
      let C' : Node → Cpd := fun v => if k v < n then C v else
        if hx : ∃ c, MadeBy g (g.nodes.map (fun u => (u, (C u).domain))) v (rel v) c ∧ ∀ x ∈ c.domain, x ∈ T v then hx.choose else C v
      have hC' : ∀ v ∈ g.nodes, k v ≤ n → MadeBy g (g.nodes.map (fun u => (u, (C u).domain))) v (rel v) (C' v) ∧ ∀ x ∈ (C' v).domain, x ∈ T v := by
        intro v hv hkv
        by_cases q : k v < n
        · have : C' v = C v := if_pos q
          rw [this]
          exact hC v hv q
        · have : C' v = (hex v hv hkv).choose := by
            simp only [C', if_neg q]
            rw [dif_pos (hex v hv hkv)]
          rw [this]
          exact (hex v hv hkv).choose_spec
      refine ⟨C', fun v hv hkv => ?_⟩
      obtain ⟨m, hm⟩ := hC' v hv (by omega)
      refine ⟨?_, hm⟩
      have hsame : ∀ p, g.Edge p v → Dict.get? (g.nodes.map (fun u => (u, (C u).domain))) p = Dict.get? (g.nodes.map (fun u => (u, (C' u).domain))) p := by
        intro p hp
        have hpn := (hw.edgeNodes p v hp).1
        rw [hD C p hpn, hD C' p hpn]
        have : C' p = C p := if_pos (by have := hk p v hp; omega)
        rw [this]
      have hwi : ∀ a, Within g (g.nodes.map (fun u => (u, (C' u).domain))) v a ↔ Within g (g.nodes.map (fun u => (u, (C u).domain))) v a := by
        intro a
        constructor <;> intro q p hp
        · rw [hsame p hp]; exact q p hp
        · rw [← hsame p hp]; exact q p hp
      have hpr : ∀ vals x, (C' v).prob (g.nodes.map (fun u => (u, (C' u).domain))) vals x = (C' v).prob (g.nodes.map (fun u => (u, (C u).domain))) vals x := by
        intro vals x
        rw [prob_congr]
        intro p hp
        rw [m.evidence] at hp
        rw [hsame p (Graph.mem_parents.1 hp)]
      refine ⟨by rw [← m.made]; exact (computed_congr hsame).symm, m.nonempty, ?_, m.wf, m.evidence, ?_, m.listed, ?_⟩
      · refine ⟨m.fits.var, m.fits.parents, ?_, m.fits.sums⟩
        rw [m.fits.cards]
        apply List.map_congr_left
        intro p hp
        rw [m.evidence] at hp
        rw [hsame p (Graph.mem_parents.1 hp)]
      · intro a ha
        obtain ⟨d, q1, q2, q3⟩ := m.prob a ((hwi a).1 ha)
        exact ⟨d, q1, fun x hx => by rw [hpr]; exact q2 x hx, q3⟩
      · intro hs
        obtain ⟨q1, q2⟩ := m.inferred hs
        refine ⟨q1, fun x => ?_⟩
        rw [q2]
        simp only [hwi]
  obtain ⟨C, hC⟩ := step (g.nodes.length + 1)
  exact ⟨C, fun v hv => hC v hv (hkn v)⟩

end Net
end Verif

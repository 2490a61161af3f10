import Verif.Lemmas.Accept
import Verif.Spec.Select
import Verif.Props.Cpd
import Mathlib.Tactic.Linarith

/-!
# `optimal_pure_policies`
-/

namespace Verif

open Graph Relation Macid

/-! ### the running maximum -/

/-- the loop on utilities alone -/
def select {α : Type} (tol : Rat) (u : α → Rat) : Option Rat → List α → List α → List α
  | _, best, [] => best
  | top, best, p :: rest =>
    match top with
    | none => select tol u (some (u p)) [p] rest
    | some m =>
      if |u p - m| ≤ tol * max |u p| |m| then select tol u top (best ++ [p]) rest
      else if m < u p then select tol u (some (u p)) [p] rest
      else select tol u top best rest

/-- closeness is monotone below the top, if the tolerance is at most 1 -/
theorem close_mono {tol m u t : Rat} (h0 : 0 ≤ tol) (h1 : tol ≤ 1) (hmu : m ≤ u) (hut : u ≤ t) (hc : Close tol t m) : Close tol u m := by
  unfold Close at *
  rw [abs_of_nonneg (by linarith)] at hc ⊢
  rcases le_or_gt |t| |m| with h | h
  · rw [max_eq_right h] at hc
    have : tol * |m| ≤ tol * max |u| |m| := mul_le_mul_of_nonneg_left (le_max_right _ _) h0
    linarith
  · rw [max_eq_left h.le] at hc
    have ht : 0 ≤ t := by
      by_contra hn
      push Not at hn
      rw [abs_of_neg hn, abs_of_neg (by linarith)] at h
      linarith
    rw [abs_of_nonneg ht] at hc
    have hm : 0 ≤ m := by nlinarith
    have : tol * u ≤ tol * max |u| |m| := mul_le_mul_of_nonneg_left (le_trans (le_abs_self u) (le_max_left _ _)) h0
    nlinarith

theorem close_self {tol a : Rat} (h0 : 0 ≤ tol) : Close tol a a := by
  unfold Close
  rw [sub_self, abs_zero]
  positivity

/-- what is known after some policies were seen -/
structure SelInv {α : Type} (tol : Rat) (u : α → Rat) (seen : List α) (m : Rat) (best : List α) : Prop where
  sub : best.Sublist seen
  ref : ∃ p ∈ best, u p = m
  near : ∀ p ∈ best, Close tol (u p) m
  top : ∀ q ∈ seen, u q ≤ m ∨ Close tol (u q) m
  all : ∀ q ∈ seen, (∀ r ∈ seen, u r ≤ u q) → q ∈ best

theorem select_inv {α : Type} {tol : Rat} (h0 : 0 ≤ tol) (h1 : tol ≤ 1) {u : α → Rat} : ∀ (rest seen : List α) (m : Rat) (best : List α),
    SelInv tol u seen m best → ∃ m', SelInv tol u (seen ++ rest) m' (select tol u (some m) best rest)
  | [], seen, m, best, h => ⟨m, by simpa [select] using h⟩
  | p :: rest, seen, m, best, h => by
    have e : seen ++ p :: rest = (seen ++ [p]) ++ rest := by simp
    rw [e]
    unfold select
    simp only
    split
    · rename_i hc
      apply select_inv h0 h1
      refine ⟨List.Sublist.append h.sub (List.Sublist.refl _), ?_, ?_, ?_, ?_⟩
      · obtain ⟨q, hq, e⟩ := h.ref
        exact ⟨q, by simp [hq], e⟩
      · intro q hq
        rcases List.mem_append.1 hq with hq | hq
        · exact h.near q hq
        · rw [List.mem_singleton] at hq
          subst hq
          exact hc
      · intro q hq
        rcases List.mem_append.1 hq with hq | hq
        · exact h.top q hq
        · rw [List.mem_singleton] at hq
          subst hq
          exact Or.inr hc
      · intro q hq hmax
        rcases List.mem_append.1 hq with hq | hq
        · exact List.mem_append_left _ (h.all q hq (fun r hr => hmax r (by simp [hr])))
        · exact List.mem_append_right _ hq
    · rename_i hc
      split
      · rename_i hlt
        apply select_inv h0 h1
        refine ⟨List.sublist_append_right _ _, ⟨p, by simp, rfl⟩, ?_, ?_, ?_⟩
        · intro q hq
          rw [List.mem_singleton] at hq
          subst hq
          exact close_self h0
        · intro q hq
          rcases List.mem_append.1 hq with hq | hq
          · rcases h.top q hq with hle | hcl
            · exact Or.inl (le_trans hle hlt.le)
            · rcases le_total (u q) (u p) with hle | hle
              · exact Or.inl hle
              · exact absurd (close_mono h0 h1 hlt.le hle hcl) hc
          · rw [List.mem_singleton] at hq
            subst hq
            exact Or.inl (le_refl _)
        · intro q hq hmax
          rcases List.mem_append.1 hq with hq | hq
          · have hpq := hmax p (by simp)
            rcases h.top q hq with hle | hcl
            · linarith
            · exact absurd (close_mono h0 h1 hlt.le hpq hcl) hc
          · exact hq
      · rename_i hlt
        apply select_inv h0 h1
        refine ⟨h.sub.trans (List.sublist_append_left _ _), h.ref, h.near, ?_, ?_⟩
        · intro q hq
          rcases List.mem_append.1 hq with hq | hq
          · exact h.top q hq
          · rw [List.mem_singleton] at hq
            subst hq
            exact Or.inl (not_lt.1 hlt)
        · intro q hq hmax
          rcases List.mem_append.1 hq with hq | hq
          · exact h.all q hq (fun r hr => hmax r (by simp [hr]))
          · rw [List.mem_singleton] at hq
            subst hq
            exfalso
            obtain ⟨r, hr, er⟩ := h.ref
            have := hmax r (by simp [h.sub.subset hr])
            rw [er] at this
            have : u q = m := le_antisymm (not_lt.1 hlt) this
            apply hc
            rw [this]
            exact close_self h0

theorem select_spec {α : Type} {tol : Rat} (h0 : 0 ≤ tol) (h1 : tol ≤ 1) {u : α → Rat} {l : List α} (hl : l ≠ []) :
    ∃ m, SelInv tol u l m (select tol u none [] l) := by
  cases l with
  | nil => exact absurd rfl hl
  | cons p rest =>
    unfold select
    exact select_inv h0 h1 rest [p] (u p) [p] ⟨List.Sublist.refl _, ⟨p, by simp, rfl⟩, by
      intro q hq
      rw [List.mem_singleton] at hq
      subst hq
      exact close_self h0, by
      intro q hq
      rw [List.mem_singleton] at hq
      subst hq
      exact Or.inl (le_refl _), fun q hq _ => hq⟩

theorem close_zero {a b : Rat} : Close 0 a b ↔ a = b := by
  unfold Close
  rw [zero_mul]
  constructor
  · intro h
    have := abs_nonpos_iff.1 h
    linarith
  · rintro rfl
    simp

/-- without tolerance: exactly the maximisers, in order -/
theorem select_zero {α : Type} {u : α → Rat} {l : List α} (hn : l.Nodup) :
    select 0 u none [] l = l.filter (fun p => l.all (fun q => decide (u q ≤ u p))) := by
  classical
  by_cases hl : l = []
  · subst hl; rfl
  · obtain ⟨m, h⟩ := select_spec (le_refl 0) (by norm_num) (u := u) hl
    have hm : ∀ p, p ∈ select 0 u none [] l ↔ p ∈ l ∧ ∀ q ∈ l, u q ≤ u p := by
      intro p
      constructor
      · intro hp
        refine ⟨h.sub.subset hp, fun q hq => ?_⟩
        have e : u p = m := close_zero.1 (h.near p hp)
        rw [e]
        rcases h.top q hq with hle | hc
        · exact hle
        · exact le_of_eq (close_zero.1 hc)
      · rintro ⟨hp, hq⟩
        exact h.all p hp hq
    have hs : (select 0 u none [] l).Sublist l := h.sub
    have : select 0 u none [] l = l.filter (fun p => decide (p ∈ select 0 u none [] l)) := by
      clear hm h hl
      generalize select 0 u none [] l = s at hs
      induction hs with
      | slnil => rfl
      | @cons s l x hs ih =>
        rw [List.nodup_cons] at hn
        have hx : x ∉ s := fun hx => hn.1 (hs.subset hx)
        rw [List.filter_cons_of_neg (by simpa using hx)]
        exact ih hn.2
      | @cons_cons s l x hs ih =>
        rw [List.nodup_cons] at hn
        rw [List.filter_cons_of_pos (by simp)]
        congr 1
        rw [List.filter_congr (q := fun p => decide (p ∈ s)) (fun y hy => by
          have : y ≠ x := by rintro rfl; exact hn.1 hy
          simp [this])]
        exact ih hn.2
    rw [this]
    apply List.filter_congr
    intro p hp
    rw [Bool.eq_iff_iff, decide_eq_true_eq, hm]
    simp [hp]

namespace Net

/-! ### changing rules during a session -/

theorem set_tab_mem {net net' : Net} {d : Node} {c : Cpd} (h : net.set d (.tab c) = (net', .ok ())) : d ∈ net.g.nodes := by
  unfold set setItem at h
  simp only [toCpd] at h
  split at h
  · simp at h
  · rename_i h1
    split at h
    · simp at h
    · rename_i h2
      rw [Bool.not_eq_false, List.all_eq_true] at h1
      have := h1 c.var (by simp)
      rw [decide_eq_true_eq] at this
      push Not at h2
      rw [← h2]
      exact this

theorem keepOf_congr {n n' : Net} (hw : n.g.WF) (hw' : n'.g.WF) (hg : n'.g = n.g) {q : List Node} {v : Node} : v ∈ keepOf n' q ↔ v ∈ keepOf n q := by
  rw [mem_keepOf hw, mem_keepOf hw', hg]

/-- a rule whose numbers are probabilities -/
def NormRule (net : Net) (d : Node) (k : Cpd) : Prop :=
  ∀ a, net.InDom a → 0 ≤ (k.prob net.domain (k.evidence.map a) (a d)).getD 0 ∧
    ((net.dom d).map (fun x => (k.prob net.domain (k.evidence.map a) x).getD 0)).sum = 1

theorem NormRule.only {net net' : Net} {ds : List Node} (hO : OnlyRules net ds net') {d : Node} {k : Cpd} (h : NormRule net d k) :
    NormRule net' d k := by
  intro a ha
  rw [hO.domain, hO.dom]
  exact h a ((hO.inDom a).1 ha)

theorem Accept.usable {net : Net} (hU : net.Usable) {d : Node} (hd : d ∈ net.g.nodes) {k : Cpd} (ha : Accept net d k)
    (hn : NormRule net d k) :
    ∃ net', net.set d (.tab k) = (net', .ok ()) ∧ net'.Usable ∧ OnlyRules net [d] net' ∧ net'.cpds.get? d = some k := by
  obtain ⟨net', h1, h2, h3, h4⟩ := ha.set hU.good hd
  refine ⟨net', h1, h3.usable hU h2 (h3.normalised hU.normalised ?_), h3, h4⟩
  intro e he hen a hia
  rw [List.mem_singleton] at he
  subst he
  have hk : ∀ a, net'.kernel e a = (k.prob net.domain (k.evidence.map a) (a e)).getD 0 := by
    intro a
    unfold Net.kernel
    rw [h4, h3.domain]
  refine ⟨by rw [hk]; exact (hn a hia).1, ?_⟩
  rw [List.map_congr_left (fun x _ => hk _)]
  have : ∀ x, k.evidence.map (Assign.upd a e x) = k.evidence.map a := by
    intro x
    apply List.map_congr_left
    intro p hp
    exact Assign.upd_ne _ _ (by rintro rfl; exact hU.good.wf.acyclic p (.single ((ha.fits.parents p).1 hp)))
  simp only [this, Assign.upd_same]
  exact (hn a hia).2

/-- storing the same rule in the original and in what is left of it -/
theorem Sess.set {c s : Net} {q : List Node} (h : Sess c q s) (hG : c.Good) {d : Node} {k : Cpd} (ha : Accept c d k) {s' c' : Net}
    (hs : s.set d (.tab k) = (s', .ok ())) (hc : c.set d (.tab k) = (c', .ok ())) (hN : c'.Normalised) : Sess c' q s' := by
  have hds := set_tab_mem hs
  have hdc := h.sub d hds
  have ha' : Accept s d k := ha.transfer hG h.good (fun p => h.edges p d hds) (fun p _ => by rw [h.dom])
  obtain ⟨s1, e1, g1, o1, k1⟩ := ha'.set h.good hds
  obtain ⟨c1, e2, g2, o2, k2⟩ := ha.set hG hdc
  rw [hs] at e1
  rw [hc] at e2
  cases e1
  cases e2
  have hcp : ∀ v ∈ s'.g.nodes, s'.cpds.get? v = c'.cpds.get? v := by
    intro v hv
    by_cases e : v = d
    · subst e; rw [k1, k2]
    · rw [o1.cpds v (by simpa using e), o2.cpds v (by simpa using e)]
      rw [o1.g] at hv
      exact h.cpds v hv
  refine ⟨g1, ?_, ?_, ?_, ?_, ?_, ?_, ?_, hcp⟩
  · intro v hv a ha
    obtain ⟨b, hb1, hb2⟩ := exists_inDom g2 a (· ∈ s'.g.nodes) (fun u hu _ => by
      have := ha u hu
      rw [o1.dom] at this
      rw [o2.dom]
      unfold Net.dom at this ⊢
      rw [h.dom] at this
      exact this)
    have hk : ∀ x, s'.kernel v (Assign.upd a v x) = c'.kernel v (Assign.upd b v x) := by
      intro x
      rw [kernel_depends g1 hv (Assign.upd a v x) (Assign.upd b v x) (fun u hu => ?_)]
      · unfold Net.kernel
        rw [hcp v hv, o1.domain, o2.domain, h.dom]
      · by_cases e : u = v
        · subst e; simp
        · rw [Assign.upd_ne _ _ e, Assign.upd_ne _ _ e]
          rcases hu with hu | hu
          · exact absurd hu e
          · exact (hb2 u (g1.wf.edgeNodes u v hu).1).symm
    have hvc : v ∈ c'.g.nodes := by
      rw [o2.g]
      rw [o1.g] at hv
      exact h.sub v hv
    obtain ⟨n1, n2⟩ := hN v hvc b hb1
    have hdv : s'.dom v = c'.dom v := by
      rw [o1.dom, o2.dom]
      unfold Net.dom
      rw [h.dom]
    constructor
    · have := hk (a v)
      rw [Assign.upd_self, show a v = b v from (hb2 v hv).symm, Assign.upd_self] at this
      rw [this]
      exact n1
    · rw [List.map_congr_left (fun x _ => hk x), hdv]
      exact n2
  · rw [o1.domain, o2.domain, h.dom]
  · have e : s'.g = s.g := o1.g
    rw [e, o1.m, o2.m, h.roles]
  · rw [o1.g, o2.g]; exact h.sub
  · intro v hv hk
    rw [o2.g] at hv
    rw [o1.g]
    exact h.keep v hv ((keepOf_congr hG.wf g2.wf o2.g).1 hk)
  · rw [o1.g, o2.g]; exact h.edges
  · rw [o1.g, o2.g]; exact h.conn

/-- a list of rules for different nodes -/
def PolicyOk (net : Net) (pol : List Cpd) : Prop :=
  (pol.map (·.var)).Nodup ∧ ∀ k ∈ pol, k.var ∈ net.g.nodes ∧ Accept net k.var k ∧ NormRule net k.var k

theorem PolicyOk.only {net net' : Net} {ds : List Node} (hO : OnlyRules net ds net') {pol : List Cpd} (h : PolicyOk net pol) :
    PolicyOk net' pol :=
  ⟨h.1, fun k hk => ⟨by rw [hO.g]; exact (h.2 k hk).1, (h.2 k hk).2.1.only hO, (h.2 k hk).2.2.only hO⟩⟩

theorem PolicyOk.tail {net : Net} {k : Cpd} {pol : List Cpd} (h : PolicyOk net (k :: pol)) : PolicyOk net pol :=
  ⟨(List.nodup_cons.1 h.1).2, fun k hk => h.2 k (by simp [hk])⟩

theorem addPolicy_usable : ∀ (pol : List Cpd) {net : Net}, net.Usable → PolicyOk net pol →
    ∃ net', net.addPolicy pol = (net', .ok ()) ∧ net'.Usable ∧ OnlyRules net (pol.map (·.var)) net' ∧
      ∀ c ∈ pol, net'.cpds.get? c.var = some c
  | [], net, hU, _ => ⟨net, rfl, hU, .rfl' _ _, by simp⟩
  | c :: pol, net, hU, hc => by
    obtain ⟨q1, q2, q3⟩ := hc.2 c (by simp)
    obtain ⟨n1, h1, h2, h3, h4⟩ := q2.usable hU q1 q3
    obtain ⟨n2, k1, k2, k3, k4⟩ := addPolicy_usable pol h2 (hc.tail.only h3)
    refine ⟨n2, ?_, k2, h3.trans k3 (by simp) (fun w hw => by simp [List.mem_map.1 hw]), ?_⟩
    · unfold addPolicy
      simp only [List.map_cons, addCpds, h1]
      exact k1
    · intro e he
      rcases List.mem_cons.1 he with rfl | he
      · rw [k3.cpds _ (List.nodup_cons.1 hc.1).1, h4]
      · exact k4 e he

theorem Sess.addPolicy : ∀ (pol : List Cpd) {c s : Net} {q : List Node}, Sess c q s → c.Usable → PolicyOk c pol →
    ∀ {s' : Net}, s.addPolicy pol = (s', .ok ()) → ∀ {c' : Net}, c.addPolicy pol = (c', .ok ()) → Sess c' q s'
  | [], c, s, q, h, _, _, s', hs, c', hc => by
    simp only [Net.addPolicy, List.map_nil, addCpds, Prod.mk.injEq, and_true] at hs hc
    subst hs hc
    exact h
  | k :: pol, c, s, q, h, hU, hok, s', hs, c', hc => by
    obtain ⟨q1, q2, q3⟩ := hok.2 k (by simp)
    obtain ⟨c1, h1, h2, h3, h4⟩ := q2.usable hU q1 q3
    unfold Net.addPolicy at hs hc
    simp only [List.map_cons, addCpds, h1] at hs hc
    generalize hx : s.set k.var (.tab k) = x at hs
    obtain ⟨s1, r⟩ := x
    cases r with
    | error e => simp at hs
    | ok u =>
      simp only at hs
      exact Sess.addPolicy pol (h.set hU.good q2 hx h1 h2.normalised) h2 (hok.tail.only h3) hs hc

/-- the utility depends on graph, roles, domains and CPDs only -/
theorem EU_congr {n n' : Net} (hm : n'.m = n.m) (hd : n'.domain = n.domain) (hc : ∀ w, n'.cpds.get? w = n.cpds.get? w) (a : Agent) :
    n'.EU a = n.EU a := by
  have hk : n'.kernel = n.kernel := by
    funext v b
    unfold Net.kernel
    rw [hc, hd]
  have hdd : n'.dom = n.dom := by
    funext v
    unfold Net.dom
    rw [hd]
  have hp : n'.P = n.P := by
    funext E
    rw [P_eq_W, P_eq_W]
    unfold bn
    rw [hk, hdd, show n'.g = n.g from congrArg Macid.g hm]
  unfold EU Mean
  simp only [PDo_nil, hp, hdd, hm]

/-- utility of the network with the policy -/
def polU (base : Net) (agent : Agent) (pol : List Cpd) : Rat := (base.addPolicy pol).1.EU agent

theorem Sess.utility {c s : Net} {us : List Node} (h : Sess c us s) (hU : c.Usable) {pick : Pick} {ord : List Node → List Node}
    (hord : ∀ l, (ord l).Perm l) {agent : Agent} (hus : c.m.agentUtilities.get? agent = some us) {s' : Net} {eu : Rat}
    (he : s.expectedUtility pick ord [] [] agent = (s', .ok eu)) : Sess c us s' ∧ eu = c.EU agent := by
  unfold expectedUtility at he
  have hs : s.m.agentUtilities.get agent = .ok us := by
    rw [h.roles]
    exact Dict.get_ok.2 hus
  rw [hs] at he
  simp only at he
  have hst := h.step hU.good pick ord []
  generalize hx : s.expectedValue pick ord us [] [] = x at he hst
  obtain ⟨s1, r⟩ := x
  cases r with
  | error e => simp at he
  | ok l =>
    simp only [Prod.mk.injEq, Except.ok.injEq] at he
    obtain ⟨rfl, rfl⟩ := he
    refine ⟨hst, ?_⟩
    obtain ⟨_, _, _, rfl⟩ := h.value hU.good hU.normalised hord (ctx := []) (by simp) (l := l) (by rw [hx])
    unfold EU
    rw [hus]
    exact ((hord us).map _).sum_eq

/-- the loop computes `select` on the utilities of the policies -/
theorem policyLoop_ok {pick : Pick} {ord : List Node → List Node} (hord : ∀ l, (ord l).Perm l) {tol : Rat} {agent : Agent} {base : Net}
    (hU : base.Usable) {us : List Node} (hus : base.m.agentUtilities.get? agent = some us) {ds : List Node} :
    ∀ (pols : List (List Cpd)) {c s : Net} {top : Option Rat} {best : List (List Cpd)} {res : List (List Cpd)},
      c.Usable → OnlyRules base ds c → Sess c us s → (∀ pol ∈ pols, PolicyOk base pol ∧ pol.map (·.var) = ds) →
      policyLoop pick ord tol agent s top best pols = .ok res →
      res = select tol (base.polU agent) top best pols ∧ (pols ≠ [] → 0 ≤ tol)
  | [], c, s, top, best, res, _, _, _, _, h => by
    simp only [policyLoop, Except.ok.injEq] at h
    subst h
    simp [select]
  | pol :: pols, c, s, top, best, res, hc, hO, hS, hpol, h => by
    obtain ⟨hok, hvar⟩ := hpol pol (by simp)
    obtain ⟨c', h1, h2, h3, h4⟩ := addPolicy_usable pol hc (hok.only hO)
    obtain ⟨b', k1, k2, k3, k4⟩ := addPolicy_usable pol hU hok
    have hO' : OnlyRules base ds c' := hO.trans h3 (fun _ h => h) (fun w hw => by rw [← hvar]; exact hw)
    have hEU : c'.EU agent = base.polU agent pol := by
      unfold polU
      rw [k1]
      apply EU_congr
      · rw [hO'.m, k3.m]
      · rw [hO'.domain, k3.domain]
      · intro w
        by_cases hw : w ∈ pol.map (·.var)
        · obtain ⟨k, hk, rfl⟩ := List.mem_map.1 hw
          rw [h4 k hk, k4 k hk]
        · rw [hO'.cpds w (by rw [← hvar]; exact hw), k3.cpds w hw]
    unfold policyLoop at h
    generalize hx : s.addPolicy pol = x at h
    obtain ⟨s1, r⟩ := x
    cases r with
    | error e => simp at h
    | ok u =>
      simp only at h
      have hS1 := Sess.addPolicy pol hS hc (hok.only hO) hx h1
      generalize hy : s1.expectedUtility pick ord [] [] agent = y at h
      obtain ⟨s2, r⟩ := y
      cases r with
      | error e => simp at h
      | ok eu =>
        simp only at h
        obtain ⟨hS2, heu⟩ := hS1.utility h2 hord (by rw [hO'.m]; exact hus) hy
        rw [hEU] at heu
        subst heu
        have hrest : ∀ pol ∈ pols, PolicyOk base pol ∧ pol.map (·.var) = ds := fun p hp => hpol p (by simp [hp])
        unfold isClose at h
        by_cases ht : tol < 0
        · rw [if_pos ht] at h
          simp at h
        · rw [if_neg ht] at h
          refine ⟨?_, fun _ => not_lt.1 ht⟩
          unfold select
          cases top with
          | none =>
            simp only [exceeds, if_true] at h
            exact (policyLoop_ok hord hU hus pols h2 hO' hS2 hrest h).1
          | some m =>
            simp only at h ⊢
            by_cases hcl : |base.polU agent pol - m| ≤ tol * max |base.polU agent pol| |m|
            · rw [decide_eq_true hcl] at h
              rw [if_pos hcl]
              exact (policyLoop_ok hord hU hus pols h2 hO' hS2 hrest h).1
            · rw [decide_eq_false hcl] at h
              rw [if_neg hcl]
              by_cases hlt : m < base.polU agent pol
              · rw [if_pos (show exceeds (base.polU agent pol) (some m) = true from decide_eq_true hlt)] at h
                rw [if_pos hlt]
                exact (policyLoop_ok hord hU hus pols h2 hO' hS2 hrest h).1
              · rw [if_neg (by simp [exceeds, hlt])] at h
                rw [if_neg hlt]
                exact (policyLoop_ok hord hU hus pols h2 hO' hS2 hrest h).1

end Net
end Verif

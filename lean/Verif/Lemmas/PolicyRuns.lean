import Verif.Lemmas.Enumerate

/-!
# When the comparison of policies succeeds
-/

namespace Verif

open Graph Relation Macid

namespace Net

theorem Sess.accept {c s : Net} {q : List Node} (h : Sess c q s) (hG : c.Good) {d : Node} (hd : d ∈ s.g.nodes) {k : Cpd}
    (ha : Accept c d k) : Accept s d k :=
  ha.transfer hG h.good (fun p => h.edges p d hd) (fun p _ => by rw [h.dom])

theorem Sess.addPolicy_runs {c s : Net} {q : List Node} (h : Sess c q s) (hU : c.Usable) {pol : List Cpd} (hok : PolicyOk c pol)
    (hk : ∀ k ∈ pol, k.var ∈ keepOf c q) : ∃ s', s.addPolicy pol = (s', .ok ()) := by
  obtain ⟨s', h1, _⟩ := addPolicy_accept pol h.good (fun k hkm => by
    have hn := h.keep k.var (hok.2 k hkm).1 (hk k hkm)
    exact ⟨hn, h.accept hU.good hn (hok.2 k hkm).2.1⟩) hok.1
  exact ⟨s', h1⟩

theorem P_nil {c : Net} (hU : c.Usable) : c.P (Ctx []) = 1 := by
  rw [P_eq_W]
  have := BN.W_one (bn_prob hU.good hU.normalised)
  simpa [Ctx] using this

/-- the loop never fails -/
theorem policyLoop_runs {pick : Pick} {ord : List Node → List Node} (hord : ∀ l, (ord l).Perm l) {tol : Rat} (ht : 0 ≤ tol) {agent : Agent} {base : Net}
    (hnames : NamesOk base.g) {us : List Node} (hus : base.m.agentUtilities.get? agent = some us) (hq : us ≠ [])
    (hqn : ∀ v ∈ us, v ∈ base.g.nodes) (hqc : ∀ u ∈ us, ∀ v ∈ us, base.g.Connected u v) {ds : List Node}
    (hdec : ∀ d ∈ base.m.decisions, d ∈ keepOf base us ∧ (d ∉ ds → base.undecided d = false))
    (hds : ∀ d ∈ ds, d ∈ base.m.decisions) :
    ∀ (pols : List (List Cpd)) {c s : Net} {top : Option Rat} {best : List (List Cpd)},
      c.Usable → OnlyRules base ds c → Sess c us s →
      (∀ pol ∈ pols, PolicyOk base pol ∧ pol.map (·.var) = ds ∧ ∀ k ∈ pol, k.kind ≠ .tabular ∧ k.kind ≠ .decision) →
      ∃ res, policyLoop pick ord tol agent s top best pols = .ok res
  | [], c, s, top, best, _, _, _, _ => ⟨best, rfl⟩
  | pol :: pols, c, s, top, best, hc, hO, hS, hpol => by
    obtain ⟨hok, hvar, hkind⟩ := hpol pol (by simp)
    have hkeep : ∀ {c' : Net}, c'.Usable → OnlyRules base ds c' → ∀ d ∈ base.m.decisions, d ∈ keepOf c' us := fun hU' hO' d hd => by
      have hb : base.g = _ := hO'.g.symm
      refine (keepOf_congr (n := base) (n' := _) ?_ hU'.good.wf hO'.g).2 (hdec d hd).1
      rw [hb]; exact hU'.good.wf
    obtain ⟨c', h1, h2, h3, h4⟩ := addPolicy_usable pol hc (hok.only hO)
    have hO' : OnlyRules base ds c' := hO.trans h3 (fun _ h => h) (fun w hw => by rw [← hvar]; exact hw)
    obtain ⟨s1, hs1⟩ := hS.addPolicy_runs hc (hok.only hO) (fun k hk => hkeep hc hO _ (hds _ (by rw [← hvar]; exact List.mem_map_of_mem hk)))
    have hS1 := Sess.addPolicy pol hS hc (hok.only hO) hs1 h1
    obtain ⟨l, hl⟩ := hS1.runs h2 (by rw [hO'.g]; exact hnames) pick hord hq (by rw [hO'.g]; exact hqn) (by rw [hO'.g]; exact hqc) (by
      intro d hd
      rw [hO'.m] at hd
      refine ⟨hkeep h2 hO' d hd, ?_⟩
      by_cases hdd : d ∈ ds
      · rw [← hvar] at hdd
        obtain ⟨k, hk, rfl⟩ := List.mem_map.1 hdd
        unfold undecided
        rw [h4 k hk]
        simpa using (hkind k hk).2
      · rw [hO'.undecided hdd]
        exact (hdec d hd).2 hdd) (ctx := []) (by simp) (by rw [P_nil h2]; norm_num)
    have hs : s1.m.agentUtilities.get agent = .ok us := by
      rw [hS1.roles, hO'.m]
      exact Dict.get_ok.2 hus
    have heu : ∃ s2 eu, s1.expectedUtility pick ord [] [] agent = (s2, .ok eu) := by
      unfold expectedUtility
      rw [hs]
      simp only
      generalize hx : s1.expectedValue pick ord us [] [] = x at hl
      obtain ⟨s2, r⟩ := x
      simp only at hl
      subst hl
      exact ⟨s2, l.sum, rfl⟩
    obtain ⟨s2, eu, heu⟩ := heu
    obtain ⟨hS2, _⟩ := hS1.utility h2 hord (by rw [hO'.m]; exact hus) heu
    have hrest : ∀ pol ∈ pols, PolicyOk base pol ∧ pol.map (·.var) = ds ∧ ∀ k ∈ pol, k.kind ≠ .tabular ∧ k.kind ≠ .decision :=
      fun p hp => hpol p (by simp [hp])
    have go := fun top best => policyLoop_runs (pick := pick) hord ht hnames hus hq hqn hqc hdec hds pols (top := top) (best := best) h2 hO' hS2 hrest
    unfold policyLoop
    rw [hs1]
    simp only
    rw [heu]
    simp only
    unfold isClose
    rw [if_neg (not_lt.2 ht)]
    cases top with
    | none =>
      simp only [exceeds, if_true]
      exact go _ _
    | some m =>
      simp only
      cases decide (|eu - m| ≤ tol * max |eu| |m|) with
      | true => exact go _ _
      | false =>
        simp only
        split
        · exact go _ _
        · exact go _ _

end Net
end Verif

import Verif.Lemmas.Rely
import Verif.Props.Relevance

/-!
# C94: what r-reachability and s-reachability mean

`is_r_reachable(d, v)` and `is_s_reachable(d, v)` are computed from the graph. They are True exactly if the best rule of the decision `d` may
depend on the CPD of `v`.
-/

namespace Verif

open Graph Relation Macid Net

/-- a diagram without parameters, for any number of agents and decisions, without edges out of utilities -/
structure Bare (net : Net) : Prop where
  fresh : net.Fresh
  roles : net.m.Consistent
  base : net.base = Macid.new ∨ net.base = Macid.newCid
  staffed : net.Staffed
  leaf : ∀ u v a, net.m.role u = .utility a → ¬ net.g.Edge u v

/-- the two games: they differ in the CPD of `v`, and so does the winning action -/
theorem rely_games {net : Net} (h : Bare net) {d v : Node} {agent : Agent} (hd : net.m.role d = .decision agent) (hv : v ∈ net.g.nodes)
    (hr : net.m.RReach d v) :
    ∃ rels N N' P n, net.addCpds rels = (N, .ok ()) ∧ N.m = net.m ∧ OnlyRules N [v] N' ∧ Match N P true n v d agent ∧ Match N' P false n v d agent := by
  classical
  obtain ⟨a, u, ra, ru, hdu, Z, n, hZ, hn, hD⟩ := hr
  have ea : a = agent := by rw [hd] at ra; exact (Role.decision.inj ra).symm
  subst ea
  have hw := h.roles.wf
  have hdn : d ∈ net.g.nodes := h.roles.nodes d (Or.inl (Dict.mem_keys.2 ⟨a, role_decision.1 hd⟩))
  have hnd : n ≠ d := by rintro rfl; exact hn hdn
  have hne : ∀ {x y}, net.g.Edge x y → x ≠ n := fun e => by rintro rfl; exact hn (hw.edgeNodes _ _ e).1
  have hune : u ≠ n := by rintro rfl; exact hn (descEq_mem hw hdu.to_reflTransGen hdn)
  obtain ⟨P, hP, h0, hh, hu, _⟩ := Plan.ofRequisite (g := spied net.g n v d) (d := d) (spied_acyclic hw hn hv hdn) (x := n) (u := u)
    (spied_edge.2 (Or.inr (Or.inl ⟨rfl, rfl⟩)))
    (TransGen.mono (fun x y (e : net.g.Edge x y) => (spied_old (hne e)).2 e) _ _ hdu) (fun w q => h.leaf u w a ru ((spied_old hune).1 q)) (Z := Z) (fun z => by
      rw [hZ]
      constructor
      · rintro (rfl | q)
        · exact ⟨Ne.symm hnd, Or.inl rfl⟩
        · exact ⟨hne q, Or.inr ((spied_old (hne q)).2 q)⟩
      · rintro ⟨q, rfl | q'⟩
        · exact Or.inl rfl
        · exact Or.inr ((spied_old q).1 q')) (spied_dconn hw hn hv hD)
  subst hu
  have hR : P.Rig net.g n v d := ⟨hP, h0, hh, hw, hn, hv, hdn⟩
  have hA := fun s => Wiring.allows hw (hR.loc s)
  obtain ⟨rels, N, e1, e2, _, hG, _, hdom, _, hker, hus⟩ := parameterise h.fresh hw (dom := fun _ => (P.rigged true).dom)
    (σ := spread (fun _ => (P.rigged true).dom) (P.rigged true).R) (free := fun _ => False) (fun _ => Wiring.dom_sorted _) (fun _ => Wiring.dom_ne _)
    (fun w hw' => (hA true).rule hw' _)
  have hU := hus h.roles h.base h.staffed
  have hg : N.g = net.g := by show N.m.g = net.m.g; rw [e2]
  have hrule : N.bn.IsRule v (spread (fun _ => (P.rigged false).dom) (P.rigged false).R v) := by
    have := (hA false).rule hv (fun _ _ => 0)
    refine ⟨fun x y hxy => this.scope x y (fun w hw' => hxy w (by show w = v ∨ N.g.Edge w v; rw [hg]; exact hw')), fun x hx => ?_, fun x hx => ?_⟩
    · have e := this.norm x (fun p hp => ?_)
      · show ((N.dom v).map _).sum = 1
        rw [hdom v hv]
        exact e
      · have := hx p (by show N.g.Edge p v; rw [hg]; exact hp)
        change x p ∈ N.dom p at this
        rw [hdom p (hw.edgeNodes _ _ hp).1] at this
        exact this
    · refine this.nonneg x (fun p hp => ?_)
      have := hx p (by
        rcases hp with q | q
        · exact Or.inl q
        · exact Or.inr (by show N.g.Edge p v; rw [hg]; exact q))
      change x p ∈ N.dom p at this
      rw [hdom p (by
        rcases hp with rfl | q
        · exact hv
        · exact (hw.edgeNodes _ _ q).1)] at this
      exact this
  obtain ⟨N', hU', hO, hk'⟩ := realize1 hU (by rw [hg]; exact hv) hrule
  have honly : ∀ i ∈ P.ownCells, net.m.role (P.node i) = .utility a → i = .win := by
    intro i hi hu
    rcases hP.child (Plan.mem_ownCells.1 hi).1 with q | ⟨w, q⟩
    · exact q
    · exact absurd ((spied_old (hR.node_ne hi)).1 q) (h.leaf _ _ a hu)
  have hpos : ∀ s, ∀ w ∈ net.g.nodes, ∀ x, N.InDom x → (0 < spread (fun _ => (P.rigged s).dom) (P.rigged s).R w x ↔ (P.rigged s).R w x) := by
    intro s w hw' x hx
    refine (hA s).pos hw' ?_
    have := hx w (by rw [hg]; exact hw')
    rw [hdom w hw'] at this
    exact this
  refine ⟨rels, N, N', P, n, e1, e2, hO, ⟨by rw [hg]; exact hR, hU, fun w hw' => hdom w (by rw [← hg]; exact hw'), fun w hw' _ x hx => ?_, by rw [e2]; exact ru, by rw [e2]; exact honly, by rw [e2]; exact hd⟩,
    ⟨by rw [hO.g, hg]; exact hR, hU', fun w hw' => ?_, fun w hw' _ x hx => ?_, by rw [hO.m, e2]; exact ru, by rw [hO.m, e2]; exact honly, by rw [hO.m, e2]; exact hd⟩⟩
  · rw [hg] at hw'
    rw [hker w hw' (fun q => q) x hx]
    exact hpos true w hw' x hx
  · rw [hO.g, hg] at hw'
    rw [hO.dom, hdom w hw']
    rfl
  · rw [hO.g, hg] at hw'
    have hx' := (hO.inDom x).1 hx
    by_cases e : w = v
    · subst e
      rw [hk' x hx']
      exact hpos false w hw' x hx'
    · rw [hO.kernel (by simpa using e), hker w hw' (fun q => q) x hx', hpos true w hw' x hx']
      exact hR.R_iff e true false x

/-- **C94** If `v` is not r-reachable from the decision `d`, the CPD of `v` does not matter to `d`: in every context of `d`, the advantage of one
action over another is the same after `v` gets another CPD. -/
theorem C94_irrelevant_cpd {N N' : Net} (hU : N.Usable) (hn : NamesOk N.g) {pick : Pick} {d v : Node} {agent : Agent}
    (hd : N.m.role d = .decision agent) (hag : agent ∈ N.m.agents) (hv : v ∈ N.g.nodes) (hr : isRReachable pick N.m [d] [v] = .ok false)
    (hU' : N'.Usable) (hO : OnlyRules N [v] N') (z : Assign) (hp : N.P (Ctx (N.seenBy d z)) ≠ 0) (hp' : N'.P (Ctx (N'.seenBy d z)) ≠ 0)
    (x y : Outcome) (hx : x ∈ N.dom d) (hy : y ∈ N.dom d) :
    N.Prospect agent d z x - N.Prospect agent d z y = N'.Prospect agent d z x - N'.Prospect agent d z y := by
  obtain ⟨b, e1, e2⟩ := isRReachable_spec hU.roles (mecFree_of_names hn) pick (ds := [d]) (ns := [v])
    (by simpa using ⟨agent, hd, hag⟩) (by simpa using hv)
  rw [hr] at e1
  have : b = false := (Except.ok.inj e1).symm
  subst this
  exact prospect_irrelevant hU hU' hO hd hv (fun q => by simpa using e2.2 ⟨d, by simp, v, by simp, q⟩) hp hp' hx hy

/-- **C94** ... and there is a rule of `d` that is a best response with both CPDs. -/
theorem C94_common_rule {N N' : Net} (hU : N.Usable) (hn : NamesOk N.g) {pick : Pick} {d v : Node} {agent : Agent}
    (hd : N.m.role d = .decision agent) (hag : agent ∈ N.m.agents) (hv : v ∈ N.g.nodes) (hr : isRReachable pick N.m [d] [v] = .ok false)
    (hU' : N'.Usable) (hO : OnlyRules N [v] N') : CommonRule N N' agent d := by
  obtain ⟨b, e1, e2⟩ := isRReachable_spec hU.roles (mecFree_of_names hn) pick (ds := [d]) (ns := [v])
    (by simpa using ⟨agent, hd, hag⟩) (by simpa using hv)
  rw [hr] at e1
  have : b = false := (Except.ok.inj e1).symm
  subst this
  exact common_rule hU hU' hO hd hv (fun q => by simpa using e2.2 ⟨d, by simp, v, by simp, q⟩)

/-- **C94** If `v` is r-reachable from `d`, the diagram can be given CPDs such that changing the CPD of `v` reverses the preference of `d`
between two actions in a context that may happen, and leaves no rule of `d` that is a best response before and after. -/
theorem C94_relevant_cpd {net : Net} (h : Bare net) (hn : NamesOk net.g) {pick : Pick} {d v : Node} {agent : Agent}
    (hd : net.m.role d = .decision agent) (hag : agent ∈ net.m.agents) (hv : v ∈ net.g.nodes) (hr : isRReachable pick net.m [d] [v] = .ok true) :
    ∃ rels N N', net.addCpds rels = (N, .ok ()) ∧ N.m = net.m ∧ N.Usable ∧ N'.Usable ∧ OnlyRules N [v] N' ∧
      (∃ z, ∃ x ∈ N.dom d, ∃ y ∈ N.dom d, N.Prefers agent d z x y ∧ N'.Prefers agent d z y x) ∧ ¬ CommonRule N N' agent d := by
  obtain ⟨b, e1, e2⟩ := isRReachable_spec h.roles (mecFree_of_names hn) pick (ds := [d]) (ns := [v])
    (by simpa using ⟨agent, hd, hag⟩) (by simpa using hv)
  rw [hr] at e1
  obtain ⟨d', hd', v', hv', q⟩ := e2.1 (Except.ok.inj e1).symm
  simp only [List.mem_singleton] at hd' hv'
  subst hd' hv'
  obtain ⟨rels, N, N', P, n, k1, k2, k3, k4, k5⟩ := rely_games h hd hv q
  exact ⟨rels, N, N', k1, k2, k4.usable, k5.usable, k3, ⟨P.view, P.bid true, k4.bid_dom true, P.bid false, k4.bid_dom false, k4.prefers, k5.prefers⟩,
    no_common_rule k4 k5 k3⟩

/-- **C94** So `is_r_reachable(d, v)` is True exactly if the diagram can be given CPDs such that, for some other CPD of `v`, no rule of `d` is a
best response both before and after the change. -/
theorem C94_r_reachable_iff {net : Net} (h : Bare net) (hn : NamesOk net.g) {pick : Pick} {d v : Node} {agent : Agent}
    (hd : net.m.role d = .decision agent) (hag : agent ∈ net.m.agents) (hv : v ∈ net.g.nodes) :
    isRReachable pick net.m [d] [v] = .ok true ↔
      ∃ rels N N', net.addCpds rels = (N, .ok ()) ∧ N.m = net.m ∧ N.Usable ∧ N'.Usable ∧ OnlyRules N [v] N' ∧ ¬ CommonRule N N' agent d := by
  constructor
  · intro hr
    obtain ⟨rels, N, N', k1, k2, k3, k4, k5, _, k6⟩ := C94_relevant_cpd h hn hd hag hv hr
    exact ⟨rels, N, N', k1, k2, k3, k4, k5, k6⟩
  · rintro ⟨rels, N, N', k1, k2, k3, k4, k5, k6⟩
    obtain ⟨b, e1, e2⟩ := isRReachable_spec h.roles (mecFree_of_names hn) pick (ds := [d]) (ns := [v])
      (by simpa using ⟨agent, hd, hag⟩) (by simpa using hv)
    cases b with
    | true => exact e1
    | false =>
      have hg : N.g = net.g := by show N.m.g = net.m.g; rw [k2]
      exact absurd (C94_common_rule k3 (by rw [hg]; exact hn) (pick := pick) (by rw [k2]; exact hd) (by rw [k2]; exact hag) (by rw [hg]; exact hv)
        (by rw [k2]; exact e1) k4 k5) k6

/-- **C94** `is_s_reachable(d, e)`, for two decisions, is True exactly if the diagram can be given CPDs and rules such that a change of the rule of
`e` leaves no rule of `d` that is a best response before and after: `d` relies on `e`. -/
theorem C94_s_reachable_iff {net : Net} (h : Bare net) (hn : NamesOk net.g) {pick : Pick} {d e : Node} {agent b : Agent}
    (hd : net.m.role d = .decision agent) (hag : agent ∈ net.m.agents) (he : net.m.role e = .decision b) :
    isSReachable pick net.m [d] e = .ok true ↔
      ∃ rels N N', net.addCpds rels = (N, .ok ()) ∧ N.m = net.m ∧ N.Usable ∧ N'.Usable ∧ OnlyRules N [e] N' ∧ ¬ CommonRule N N' agent d := by
  have hm : e ∈ net.m.decisions := decisions_role.2 ⟨b, he⟩
  rw [← C94_r_reachable_iff h hn (pick := pick) hd hag (h.roles.nodes e (Or.inl hm))]
  unfold isSReachable
  rw [if_neg (not_not.2 hm)]

def exForgetNet : Net := ⟨exForget, [], [], [], Macid.newCid⟩

theorem exForget_bare : Bare exForgetNet := by
  refine ⟨⟨rfl, rfl, rfl⟩, exForget_consistent, Or.inr rfl, ⟨fun a => Iff.rfl, fun a ha => Or.inl ?_⟩, fun u v a hu he => ?_⟩
  · have : a = 0 := by simpa [exForgetNet, exForget, Dict.keys] using ha
    subst this
    exact ⟨⟨"D1", by decide⟩, ⟨"U", by decide⟩⟩
  · have he' : (u, v) ∈ [("D1", "U"), ("D2", "U")] := he
    simp only [List.mem_cons, Prod.mk.injEq, List.not_mem_nil, or_false] at he'
    rcases he' with ⟨rfl, _⟩ | ⟨rfl, _⟩ <;> simp [Macid.role, exForgetNet, exForget, Dict.get?] at hu

/-- the hypotheses are met: with forgotten moves each decision relies on the other, and on the utility -/
example : Bare exForgetNet ∧ NamesOk exForgetNet.g ∧ exForgetNet.m.role "D1" = .decision 0 ∧ 0 ∈ exForgetNet.m.agents ∧
    isRReachable (fun _ => 0) exForgetNet.m ["D1"] ["D2"] = .ok true ∧ isSReachable (fun _ => 0) exForgetNet.m ["D1"] "D2" = .ok true ∧
    isRReachable (fun _ => 0) exForgetNet.m ["D1"] ["U"] = .ok true ∧ isRReachable (fun _ => 0) exForgetNet.m ["D1"] ["D1"] = .ok false :=
  ⟨exForget_bare, ⟨by decide +kernel, by decide +kernel⟩, by decide +kernel, by decide +kernel, by decide +kernel, by decide +kernel, by decide +kernel,
    by decide +kernel⟩

end Verif

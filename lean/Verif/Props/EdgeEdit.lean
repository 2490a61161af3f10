import Verif.Lemmas.EdgeEdit
import Verif.Props.Quantify

/-!
# C99: adding and removing edges of a parameterised network
-/

namespace Verif

open Graph Relation Macid Net

namespace Net

theorem Edited.world {net n : Net} {d : Node} (h : Edited net d n) : SameWorld (· = d) net n :=
  ⟨h.nodes, fun v => by rw [h.roles]; rfl, fun v _ => by unfold dom; rw [h.domain], fun v _ hv a _ => by
    unfold kernel
    rw [h.cpds v hv, h.domain]⟩

theorem Edited.sameWorld {net n : Net} {d : Node} (hU : net.Usable) (hd : d ∈ net.g.nodes) (h : Edited net d n) (hdir : net.Direct d) :
    n.Usable ∧ SameWorld (fun _ => False) net n :=
  ⟨(h.direct hU hd hdir).1, h.world.nodes, h.world.roles, h.world.outcomes, fun v hv _ => (h.direct hU hd hdir).2 v hv⟩

theorem Edited.raises {net n : Net} {d x : Node} (hU : net.Usable) (hd : d ∈ net.g.nodes) (h : Edited net d n) (hdir : ¬ net.Direct d)
    (hx : net.g.Edge x d ↔ ¬ n.g.Edge x d) : ∀ (pick : Pick) (ord : List Node → List Node) (q : List Node) (ctx : List (Node × Outcome)) (v : Node),
      v ∈ q → n.g.Connected v d → (∃ e, (n.query pick ord q ctx []).2 = .error e) ∧ ∃ e, (n.queryCbn ord q ctx []).2 = .error e := by
  intro pick ord q ctx v hv hcon
  obtain ⟨c, hc, _⟩ := hU.good.complete d hd
  have hst := h.stale hU hd hdir d
  rw [hc] at hst
  have hcbn : ∃ e, (n.queryCbn ord q ctx []).2 = .error e := by
    unfold queryCbn
    cases n.checkContextCbn ctx with
    | error e => exact ⟨e, rfl⟩
    | ok _ => exact stale_query h.almost.wf ((h.nodes d).2 hd) hst (((hU.good.fits d c hc).parents x).trans hx) ord hv hcon
  refine ⟨?_, hcbn⟩
  unfold query
  cases n.checkContext ctx with
  | error e => exact ⟨e, rfl⟩
  | ok _ =>
    simp only
    cases n.policiesOk pick q ctx [] with
    | error e => exact ⟨e, rfl⟩
    | ok _ => exact hcbn

end Net

/-- **C99** `add_edge` between two nodes of a working network, where the new edge closes no cycle: the call returns, exactly that edge is
added, and all nodes, roles and outcomes and the mechanisms of all other nodes stay.  If the relationship of the child was given as a
distribution or as a list of actions, the network works as before and no probability has changed: the child ignores its new parent. -/
theorem C99_add_edge {net : Net} (hU : net.Usable) {x d : Node} (hx : x ∈ net.g.nodes) (hd : d ∈ net.g.nodes) (hxd : ¬ net.g.DescEq d x) :
    ∃ n, net.addEdge x d = (n, .ok ()) ∧ (∀ u v, n.g.Edge u v ↔ net.g.Edge u v ∨ (u = x ∧ v = d)) ∧ SameWorld (· = d) net n ∧
      (net.Direct d → n.Usable ∧ SameWorld (fun _ => False) net n) := by
  obtain ⟨n, h1, h2, h3⟩ := hU.addEdge hx hd hxd
  exact ⟨n, h1, h3, h2.world, fun hdir => h2.sameWorld hU hd hdir⟩

/-- **C99** `remove_edge` of an edge of a working network: the call returns, exactly that edge is gone, and all nodes, roles and outcomes and
the mechanisms of all other nodes stay.  If the relationship of the child was given as a distribution or as a list of actions, the network
works as before and no probability has changed. -/
theorem C99_remove_edge {net : Net} (hU : net.Usable) {x d : Node} (he : net.g.Edge x d) :
    ∃ n, net.removeEdge x d = (n, .ok ()) ∧ (∀ u v, n.g.Edge u v ↔ net.g.Edge u v ∧ ¬ (u = x ∧ v = d)) ∧ SameWorld (· = d) net n ∧
      (net.Direct d → n.Usable ∧ SameWorld (fun _ => False) net n) := by
  obtain ⟨n, h1, h2, h3⟩ := hU.removeEdge he
  exact ⟨n, h1, h3, h2.world, fun hdir => h2.sameWorld hU (hU.good.wf.edgeNodes _ _ he).2 hdir⟩

/-- **C99** If the relationship of the child was given in another way (a function or a CPD object), `add_edge` of a new edge also returns, but
leaves the old CPD in place: from then on every query about a variable connected to the child raises. -/
theorem C99_add_edge_stale {net : Net} (hU : net.Usable) {x d : Node} (hx : x ∈ net.g.nodes) (hd : d ∈ net.g.nodes) (hxd : ¬ net.g.DescEq d x)
    (hnew : ¬ net.g.Edge x d) (hdir : ¬ net.Direct d) :
    ∃ n, net.addEdge x d = (n, .ok ()) ∧ (∀ v, n.cpds.get? v = net.cpds.get? v) ∧
      ∀ (pick : Pick) (ord : List Node → List Node) (q : List Node) (ctx : List (Node × Outcome)) (v : Node),
        v ∈ q → n.g.Connected v d → (∃ e, (n.query pick ord q ctx []).2 = .error e) ∧ ∃ e, (n.queryCbn ord q ctx []).2 = .error e := by
  obtain ⟨n, h1, h2, h3⟩ := hU.addEdge hx hd hxd
  have : n.g.Edge x d := (h3 x d).2 (Or.inr ⟨rfl, rfl⟩)
  exact ⟨n, h1, h2.stale hU hd hdir, h2.raises (x := x) hU hd hdir ⟨fun q => absurd q hnew, fun q => absurd this q⟩⟩

/-- **C99** The same for `remove_edge`. -/
theorem C99_remove_edge_stale {net : Net} (hU : net.Usable) {x d : Node} (he : net.g.Edge x d) (hdir : ¬ net.Direct d) :
    ∃ n, net.removeEdge x d = (n, .ok ()) ∧ (∀ v, n.cpds.get? v = net.cpds.get? v) ∧
      ∀ (pick : Pick) (ord : List Node → List Node) (q : List Node) (ctx : List (Node × Outcome)) (v : Node),
        v ∈ q → n.g.Connected v d → (∃ e, (n.query pick ord q ctx []).2 = .error e) ∧ ∃ e, (n.queryCbn ord q ctx []).2 = .error e := by
  obtain ⟨n, h1, h2, h3⟩ := hU.removeEdge he
  have hd := (hU.good.wf.edgeNodes _ _ he).2
  have : ¬ n.g.Edge x d := fun q => ((h3 x d).1 q).2 ⟨rfl, rfl⟩
  exact ⟨n, h1, h2.stale hU hd hdir, h2.raises (x := x) hU hd hdir ⟨fun _ => this, fun _ => he⟩⟩

/-- **C99** However the relationship of the child was given: after `add_edge` or `remove_edge` any family of distributions over the child's
outcomes that depends on the new parents can be assigned to the child as a function, and then the network works again, with exactly these
probabilities at the child and the old ones at every other node. -/
theorem C99_repair {net : Net} (hU : net.Usable) {x d : Node} (hx : x ∈ net.g.nodes) (hd : d ∈ net.g.nodes) (hs : (net.dom d).Pairwise (· < ·))
    {n : Net} (h : (¬ net.g.DescEq d x ∧ net.addEdge x d = (n, .ok ())) ∨ (net.g.Edge x d ∧ net.removeEdge x d = (n, .ok ())))
    (δ : Assign → Outcome → Rat) (h0 : ∀ a, net.InDom a → ∀ o ∈ net.dom d, 0 ≤ δ (n.view d a) o)
    (h1 : ∀ a, net.InDom a → ((net.dom d).map (δ (n.view d a))).sum = 1) :
    ∃ n', n.set d (.func (fun pv => .ok (.dist ((net.dom d).map (fun o => (o, some (δ (fun p => (pv p).getD 0) o))))))) = (n', .ok ()) ∧
      n'.Usable ∧ (∀ u v, n'.g.Edge u v ↔ n.g.Edge u v) ∧ SameWorld (· = d) net n' ∧
      ∀ a, net.InDom a → n'.kernel d a = δ (n.view d a) (a d) := by
  have hE : Edited net d n := by
    rcases h with ⟨hxd, h⟩ | ⟨he, h⟩
    · obtain ⟨n2, k1, k2, _⟩ := hU.addEdge hx hd hxd
      rw [k1] at h
      cases h
      exact k2
    · obtain ⟨n2, k1, k2, _⟩ := hU.removeEdge he
      rw [k1] at h
      cases h
      exact k2
  obtain ⟨n', q1, q2, q3, q4, q5, q6⟩ := hE.assign hU hd hs h0 h1
  refine ⟨n', q1, q2, fun u v => by unfold Net.g; rw [q3], ⟨fun v => by unfold Net.g; rw [q3]; exact hE.nodes v, fun v => by rw [q3]; exact hE.world.roles v,
    fun v _ => by unfold dom; rw [q4], fun v hv hvd a _ => by rw [q5 v hv hvd]⟩, q6⟩

/-- **C99** An edge that would close a cycle is refused with a ValueError, and an edge that is not there cannot be removed; the network is
unchanged. -/
theorem C99_refused {net : Net} (hU : net.Usable) {x d : Node} :
    (x = d ∨ (x ∈ net.g.nodes ∧ net.g.DescEq d x) → net.addEdge x d = (net, .error .value)) ∧
    (¬ net.g.Edge x d → net.removeEdge x d = (net, .error .nx)) := by
  constructor
  · intro h
    have : net.g.addEdge x d = .error .value := by
      unfold Graph.addEdge
      by_cases e : x = d
      · rw [if_pos e]
      · rcases h with h | ⟨h1, h2⟩
        · exact absurd h e
        · have hd : d ∈ net.g.nodes := by
            rcases Relation.ReflTransGen.cases_head h2 with rfl | ⟨c, hc, _⟩
            · exact h1
            · exact (hU.good.wf.edgeNodes _ _ hc).1
          rw [if_neg e, if_pos ⟨h1, hd, (hasPath_iff hU.good.wf).2 h2⟩]
    unfold Net.addEdge
    rw [this]
  · intro h
    have : net.g.removeEdge x d = .error .nx := by
      unfold Graph.removeEdge
      exact if_neg h
    unfold Net.removeEdge
    rw [this]

/-- The hypotheses are met: the decision of `ExV` may observe `X`, its utility is given as a function and `X` is one of its parents; after the
removal of that edge a query raises, and a new function makes it work again. -/
theorem C99_example : ExV.net.Usable ∧ "X" ∈ ExV.net.g.nodes ∧ "D" ∈ ExV.net.g.nodes ∧ ¬ ExV.net.g.DescEq "D" "X" ∧ ExV.net.Direct "D" ∧
    ExV.net.g.Edge "X" "U" ∧ ¬ ExV.net.Direct "U" ∧ (ExV.net.dom "U").Pairwise (· < ·) ∧
    (ExV.net.queryCbn id ["U"] [("D", 0)] []).2 = .ok ⟨["U"], [[0, 1 - 1 / 10000000000, 1]], [some 0, some 0, some 1]⟩ ∧
    ((ExV.net.addEdge "X" "D").1.queryCbn id ["U"] [("D", 0)] []).2 = .ok ⟨["U"], [[0, 1 - 1 / 10000000000, 1]], [some 0, some 0, some 1]⟩ ∧
    (ExV.net.removeEdge "X" "U").2 = .ok () ∧ ((ExV.net.removeEdge "X" "U").1.queryCbn id ["U"] [("D", 0)] []).2 = .error .value ∧
    (((ExV.net.removeEdge "X" "U").1.set "U" (.func (fun pv => .ok (.val ((pv "D").getD 0))))).1.queryCbn id ["U"] [("D", 0)] []).2 =
      .ok ⟨["U"], [[0, 1]], [some 1, some 0]⟩ ∧
    ExV.net.addEdge "U" "X" = (ExV.net, .error .value) := by
  have hU := ExV.usable.1
  have hn : ¬ ExV.net.g.DescEq "D" "X" := by
    rw [← hasPath_iff hU.good.wf]; decide +kernel
  have hD : ExV.net.Direct "D" := by
    have : (match ExV.net.rels.get? "D" with | some (.seq _) => true | _ => false) = true := by decide +kernel
    split at this
    · rename_i l h; exact Or.inr ⟨l, h⟩
    · simp at this
  refine ⟨hU, by decide +kernel, by decide +kernel, hn, hD, ?_, ?_, by decide +kernel, by decide +kernel, by decide +kernel,
    by decide +kernel, by decide +kernel, by decide +kernel, (C99_refused hU).1 (Or.inr ⟨by decide +kernel, ?_⟩)⟩
  · show ("X", "U") ∈ ExV.net.g.edges
    decide +kernel
  · have : (match ExV.net.rels.get? "U" with | some (.dist _) => false | some (.seq _) => false | _ => true) = true := by decide +kernel
    rintro (⟨t, h⟩ | ⟨l, h⟩)
    · rw [h] at this; simp at this
    · rw [h] at this; simp at this
  · rw [← hasPath_iff hU.good.wf]; decide +kernel

end Verif

import Verif.Lemmas.MaxEU
import Verif.Props.Incentives

/-!
# Graphical criteria and expected utility (C53, C57, C75)
-/

namespace Verif

open Graph Relation Macid Net

/-! ### parameterised versions of `exInfo` for the examples -/

namespace ExW

/-- 3 if M equals A, else 0 -/
def utility : Func := fun pv => .ok (.val (if pv "M" = pv "A" then 3 else 0))

def copy (p : Node) : Func := fun pv => .ok (.val ((pv p).getD 0))

/-- `q` is the probability of `W = 0` -/
def rels (q : Rat) : List (Node × Rel) :=
  [("W", .dist [(0, some q), (1, some (1 - q))]), ("A", .dist [(0, some (1 / 4)), (1, some (3 / 4))]), ("X", .func (copy "W")), ("D", .seq [0, 1]),
    ("M", .func (copy "D")), ("U", .func utility)]

def edges : List (Node × Node) := [("W", "X"), ("X", "D"), ("A", "D"), ("A", "U"), ("D", "M"), ("M", "U")]

def edges' : List (Node × Node) := [("W", "X"), ("A", "D"), ("A", "U"), ("D", "M"), ("M", "U")]

/-- without the observation `X → D` -/
def exInfo' : Macid := ⟨⟨["W", "X", "A", "D", "U", "M"], edges'⟩, [(0, ["D"])], [(0, ["U"])], [("D", 0)], [("U", 0)]⟩

def net (q : Rat) : Net := ((Net.mk exInfo [] [] [] Macid.new).addCpds (rels q)).1
def net' : Net := ((Net.mk exInfo' [] [] [] Macid.new).addCpds (rels (1 / 3))).1

theorem honest (q : Rat) : ∀ p ∈ rels q, Honest p.2 := by
  intro p hp
  simp only [rels, List.mem_cons, List.not_mem_nil, or_false] at hp
  rcases hp with rfl | rfl | rfl | rfl | rfl | rfl
  · trivial
  · trivial
  · intro pv; simp [copy]
  · trivial
  · intro pv; simp [copy]
  · intro pv; simp [utility]

/-- an executable check of `SameWorld` -/
def sameB (ds : List Node) (n1 n2 : Net) : Bool :=
  decide (n1.g.nodes ⊆ n2.g.nodes) && decide (n2.g.nodes ⊆ n1.g.nodes) && decide (n2.m.decisionAgent = n1.m.decisionAgent) &&
  decide (n2.m.utilityAgent = n1.m.utilityAgent) && n1.g.nodes.all (fun v => decide (n2.dom v = n1.dom v) && (decide (v ∈ ds) ||
    (product (n1.g.nodes.map n1.dom)).all (fun vals => decide (n2.kernel v (fun u => (pvOf n1.g.nodes vals u).getD 0) =
      n1.kernel v (fun u => (pvOf n1.g.nodes vals u).getD 0)))))

theorem same_of {ds : List Node} {n1 n2 : Net} (h1 : n1.Good) (h2 : n2.Good) (h : sameB ds n1 n2 = true) : SameWorld (· ∈ ds) n1 n2 := by
  unfold sameB at h
  simp only [Bool.and_eq_true, Bool.or_eq_true, decide_eq_true_eq, List.all_eq_true] at h
  obtain ⟨⟨⟨⟨c1, c2⟩, c3⟩, c4⟩, c5⟩ := h
  refine ⟨fun v => ⟨fun q => c2 q, fun q => c1 q⟩, fun v => by unfold Macid.role; rw [c3, c4], fun v hv => (c5 v hv).1, fun v hv hd a ha => ?_⟩
  have := ((c5 v hv).2.resolve_left hd) (n1.g.nodes.map a) (by
    rw [mem_product]
    rw [List.forall₂_map_left_iff, List.forall₂_map_right_iff, List.forall₂_same]
    exact ha)
  have hval : ∀ u ∈ n1.g.nodes, (pvOf n1.g.nodes (n1.g.nodes.map a) u).getD 0 = a u := by
    intro u hu
    simp [pvOf_map, restrict, hu]
  have e1 := kernel_depends h1 hv a (fun u => (pvOf n1.g.nodes (n1.g.nodes.map a) u).getD 0) (fun u hu => (hval u (by
    rcases hu with rfl | hu
    · exact hv
    · exact (h1.wf.edgeNodes _ _ hu).1)).symm)
  have e2 := kernel_depends h2 (c1 hv) a (fun u => (pvOf n1.g.nodes (n1.g.nodes.map a) u).getD 0) (fun u hu => (hval u (by
    rcases hu with rfl | hu
    · exact hv
    · exact c2 (h2.wf.edgeNodes _ _ hu).1)).symm)
  rw [e1, e2, this]

theorem usable : (net (1 / 3)).Usable ∧ (net (1 / 3)).m = exInfo :=
  usable_of_build (edges := edges) (ad := [(0, ["D"])]) (au := [(0, ["U"])]) (rels := rels (1 / 3)) (by decide +kernel)
    (by rw [← show ((Net.mk exInfo [] [] [] Macid.new).addCpds (rels (1 / 3))).2 = .ok () by decide +kernel]; rfl) (honest _) (by decide +kernel)

theorem usable2 : (net (1 / 2)).Usable ∧ (net (1 / 2)).m = exInfo :=
  usable_of_build (edges := edges) (ad := [(0, ["D"])]) (au := [(0, ["U"])]) (rels := rels (1 / 2)) (by decide +kernel)
    (by rw [← show ((Net.mk exInfo [] [] [] Macid.new).addCpds (rels (1 / 2))).2 = .ok () by decide +kernel]; rfl) (honest _) (by decide +kernel)

theorem usable' : net'.Usable ∧ net'.m = exInfo' :=
  usable_of_build (edges := edges') (ad := [(0, ["D"])]) (au := [(0, ["U"])]) (rels := rels (1 / 3)) (by decide +kernel)
    (by rw [← show ((Net.mk exInfo' [] [] [] Macid.new).addCpds (rels (1 / 3))).2 = .ok () by decide +kernel]; rfl) (honest _) (by decide +kernel)

theorem recalls : exInfo.Recalls := by
  intro b ds hds c hc
  have hsub : ∀ e ∈ ds, e = "D" := fun e he => by
    have := Dict.mem_of_get? (role_decision.1 ((hds e).1 he))
    simp [exInfo] at this
    exact this.1
  rcases TransGen.head'_iff.1 hc with ⟨c', ⟨q1, q2, q3, _⟩, _⟩
  exact q3 ((hsub _ q1).trans (hsub _ q2).symm)

theorem owner : ∀ d b, exInfo.role d = .decision b → b = 0 := fun d b h => by
  have := Dict.mem_of_get? (role_decision.1 h)
  simp [exInfo] at this
  exact this.2

theorem world : SameWorld (· ∈ (net (1 / 3)).m.decisions) (net (1 / 3)) net' :=
  same_of usable.1.good usable'.1.good (by decide +kernel)

theorem world2 : SameWorld (· ∈ "W" :: (net (1 / 3)).m.decisions) (net (1 / 3)) (net (1 / 2)) :=
  same_of usable.1.good usable2.1.good (by decide +kernel)

theorem edge (u v : Node) : exInfo'.g.Edge u v ↔ exInfo.g.Edge u v ∧ ¬ (u = "X" ∧ v = "D") := by
  simp only [Graph.Edge, exInfo', exInfo, edges', List.mem_cons, Prod.mk.injEq, List.not_mem_nil, or_false]
  constructor
  · rintro (⟨rfl, rfl⟩ | ⟨rfl, rfl⟩ | ⟨rfl, rfl⟩ | ⟨rfl, rfl⟩ | ⟨rfl, rfl⟩) <;> decide
  · rintro ⟨⟨rfl, rfl⟩ | ⟨rfl, rfl⟩ | ⟨rfl, rfl⟩ | ⟨rfl, rfl⟩ | ⟨rfl, rfl⟩ | ⟨rfl, rfl⟩, h⟩ <;> first | decide | exact absurd ⟨rfl, rfl⟩ h

end ExW

/-! ### C75 -/

/-- **C75** removing the observations `requisite_graph` removes does not change the maximal expected utility: the maximum exists,
and it is the same for every parameterised diagram and its version over the requisite graph. -/
theorem C75_requisite_graph_preserves {net : Net} (hU : net.Usable) {a : Agent} (hag : ∀ d b, net.m.role d = .decision b → b = a)
    {pick : Pick} {tpick : List Node → Nat} {setOrd : ListOrder} (hset : ∀ l, (setOrd l).Perm l) {rg : Net}
    (hrg : requisiteGraph pick tpick setOrd net = .ok rg) {net' : Net} (hU' : net'.Usable)
    (hE : ∀ u v, net'.g.Edge u v ↔ rg.g.Edge u v) (hw : SameWorld (· ∈ net.m.decisions) net net') :
    ∃ r, net.IsMaxEU a r ∧ net'.IsMaxEU a r := by
  obtain ⟨rg', order, h1, _, h3, h4, _⟩ := hU.analysable.requisiteGraph pick tpick hset
  rw [hrg] at h1
  cases h1
  have hmem : ∀ d, d ∈ order ↔ d ∈ net.m.decisions := fun d => by rw [h3.all, decisions_role]
  obtain ⟨r, hr⟩ := exists_maxEU hU hag
  refine ⟨r, hr, hr.of_dominates (fun n q1 q2 => ?_) (fun n q1 q2 => ?_)⟩
  · obtain ⟨n', k1, k2, k3⟩ := dominates hU hU' h4 h3.nodup (agent := a)
      (fun d hd => by obtain ⟨b, hb⟩ := (h3.all d).1 hd; rw [hb, hag d b hb]) (fun u => by rw [hw.roles]) hw.nodes hw.outcomes
      (X := fun _ => False) (by simp) (fun u v h => (hE u v).2 h)
      (fun v hv hvo _ b hb => hw.kernels v hv (fun q => hvo ((hmem v).2 q)) b hb) q1 (q2.congr (fun w => (hmem w).symm))
    exact ⟨n', k1, k2.congr (fun w => by rw [hmem, hw.decisions]), k3⟩
  · have hw' : SameWorld (· ∈ net'.m.decisions) net' net := by
      have := hw.symm
      exact ⟨this.nodes, this.roles, this.outcomes, fun v hv hd => this.kernels v hv (fun q => hd ((hw.decisions v).2 q))⟩
    exact dominates_more hU' hU (fun d b hb => hag d b (by rw [← hw.roles]; exact hb)) hw' (fun u v h => h4.sub u v ((hE u v).1 h)) q1 q2

/-- The requisite graph of the example lacks `X → D`. -/
example : ∃ rg, requisiteGraph (fun _ => 0) (fun _ => 0) id (ExW.net (1 / 3)) = .ok rg ∧ (∀ u v, ExW.net'.g.Edge u v ↔ rg.g.Edge u v) ∧
    ∃ r, (ExW.net (1 / 3)).IsMaxEU 0 r ∧ ExW.net'.IsMaxEU 0 r := by
  obtain ⟨hU, hm⟩ := ExW.usable
  have hone : ∀ e b, (ExW.net (1 / 3)).m.role e = .decision b → e = "D" := fun e b h => by
    rw [hm] at h
    have := Dict.mem_of_get? (role_decision.1 h)
    simp [exInfo] at this
    exact this.1
  obtain ⟨rg, h1, _, h3⟩ := C51_single_decision hU.analysable (fun _ => 0) (fun _ => 0) (setOrd := id) (fun _ => List.Perm.refl _)
    (d := "D") (a := 0) (by rw [hm]; decide) hone
  have hE : ∀ u v, ExW.net'.g.Edge u v ↔ rg.g.Edge u v := by
    have : (match requisiteGraph (fun _ => 0) (fun _ => 0) id (ExW.net (1 / 3)) with
      | .ok rg => decide (rg.g.edges ⊆ ExW.edges' ∧ ExW.edges' ⊆ rg.g.edges)
      | .error _ => false) = true := by decide +kernel
    rw [h1] at this
    simp only [decide_eq_true_eq] at this
    intro u v
    show (u, v) ∈ ExW.net'.m.g.edges ↔ _
    rw [ExW.usable'.2]
    exact ⟨fun q => this.2 q, fun q => this.1 q⟩
  exact ⟨rg, h1, hE, C75_requisite_graph_preserves hU (by rw [hm]; exact ExW.owner) (fun _ => List.Perm.refl _) h1 ExW.usable'.1 hE ExW.world⟩

/-! ### C53 -/

/-- **C53** If `admits_voi` is False for `x`, then whatever the distributions are, the best the decision maker can do when it observes
`x` before `d` is the best it can do without that observation. -/
theorem C53_no_value_of_information {cid : Net} (h : cid.Analysable) (hn : NamesOk cid.g) {pick : Pick} {tpick : List Node → Nat}
    {setOrd : ListOrder} (hset : ∀ l, (setOrd l).Perm l) (h1 : cid.m.agents.length ≤ 1) (hr : cid.m.Recalls) {x d : Node}
    (hx : x ∈ cid.g.nodes) {a : Agent} (hd : cid.m.role d = .decision a) (hv : admitsVoi pick tpick setOrd cid d x = .ok false)
    {n1 n2 : Net} (hU1 : n1.Usable) (hU2 : n2.Usable) (hr1 : ∀ v, n1.m.role v = cid.m.role v)
    (hE1 : ∀ u v, n1.g.Edge u v ↔ cid.g.Edge u v ∨ (u = x ∧ v = d))
    (hE2 : ∀ u v, n2.g.Edge u v ↔ cid.g.Edge u v ∧ ¬ (u = x ∧ v = d))
    (hw : SameWorld (· ∈ n1.m.decisions) n1 n2) :
    ∃ r, n1.IsMaxEU a r ∧ n2.IsMaxEU a r := by
  have hdn : d ∈ cid.g.nodes := h.roles.nodes d (Or.inl (decisions_role.2 ⟨a, hd⟩))
  have hobs : ¬ cid.g.DescEq d x := by
    intro q
    have : n1.g.DescEq d x := ReflTransGen.mono (fun u v e => (hE1 u v).2 (Or.inl e)) _ _ q
    exact hU1.good.wf.acyclic d (TransGen.tail'_iff.2 ⟨x, this, (hE1 x d).2 (Or.inr ⟨rfl, rfl⟩)⟩)
  obtain ⟨order, H, b, j1, j2, j3, j4⟩ := (C52_admits_voi h hn pick tpick hset h1 hr hx hdn).2 hobs
  have hHx : ¬ H.Edge x d := by
    rw [hv] at j3
    cases j3
    simpa using j4
  have hplus : ∀ u v, (cid.m.onGraph (cid.g.plus x d)).g.Edge u v ↔ n1.m.g.Edge u v := by
    intro u v
    show (u, v) ∈ (x, d) :: cid.g.edges ↔ n1.g.Edge u v
    rw [hE1, List.mem_cons, Prod.mk.injEq]
    exact or_comm
  have j2' := j2.transfer (m := n1.m) (m' := cid.m.onGraph (cid.g.plus x d)) (fun n => (hr1 n).symm) hplus
  have j1' := j1.congr (m := n1.m) (m' := cid.m.onGraph (cid.g.plus x d)) (fun n => (hr1 n).symm) hplus
  have haa : a ∈ cid.m.agents := by
    obtain ⟨ds, q, _⟩ := (h.roles.dec.iff d a).1 (role_decision.1 hd)
    exact (h.staffed.both a).2 (Dict.mem_keys.2 ⟨ds, q⟩)
  have hag : ∀ d b, n1.m.role d = .decision b → b = a := fun e b he => h.owner h1 haa (Or.inl (by rw [← hr1]; exact he))
  have hmem : ∀ d, d ∈ order ↔ d ∈ n1.m.decisions := fun d => by rw [j1'.all, decisions_role]
  obtain ⟨r, hr⟩ := exists_maxEU hU1 hag
  refine ⟨r, hr, hr.of_dominates (fun n q1 q2 => ?_) (fun n q1 q2 => ?_)⟩
  · obtain ⟨n', k1, k2, k3⟩ := dominates hU1 hU2 j2' j1'.nodup (agent := a)
      (fun d hd => by obtain ⟨b, hb⟩ := (j1'.all d).1 hd; rw [hb, hag d b hb]) (fun u => by rw [hw.roles]) hw.nodes hw.outcomes
      (X := fun _ => False) (by simp) (fun u v h => by
        have hH : H.Edge u v := h
        have := (hE1 u v).1 ((hplus u v).1 (j2.sub u v hH))
        rw [hE2]
        have hne : ¬ (u = x ∧ v = d) := by
          rintro ⟨rfl, rfl⟩
          exact hHx hH
        exact ⟨this.resolve_right hne, hne⟩)
      (fun v hv hvo _ b hb => hw.kernels v hv (fun q => hvo ((hmem v).2 q)) b hb) q1 (q2.congr (fun w => (hmem w).symm))
    exact ⟨n', k1, k2.congr (fun w => by rw [hmem, hw.decisions]), k3⟩
  · have hw' : SameWorld (· ∈ n2.m.decisions) n2 n1 := by
      have := hw.symm
      exact ⟨this.nodes, this.roles, this.outcomes, fun v hv hd => this.kernels v hv (fun q => hd ((hw.decisions v).2 q))⟩
    exact dominates_more hU2 hU1 (fun d b hb => hag d b (by rw [← hw.roles]; exact hb)) hw'
      (fun u v h => (hE1 u v).2 (Or.inl ((hE2 u v).1 h).1)) q1 q2

/-- Observing `X` is worth nothing in the example, although `A` is. -/
example : admitsVoi (fun _ => 0) (fun _ => 0) id exInfoNet "D" "X" = .ok false ∧
    ∃ r, (ExW.net (1 / 3)).IsMaxEU 0 r ∧ ExW.net'.IsMaxEU 0 r := by
  have hv : admitsVoi (fun _ => 0) (fun _ => 0) id exInfoNet "D" "X" = .ok false := by decide +kernel
  refine ⟨hv, C53_no_value_of_information exInfoNet_analysable ⟨by decide +kernel, by decide +kernel⟩ (fun _ => List.Perm.refl _) (by decide)
    ExW.recalls (x := "X") (d := "D") (by decide) (by decide) hv ExW.usable.1 ExW.usable'.1 (fun v => by rw [ExW.usable.2]; rfl) (fun u v => ?_)
    (fun u v => ?_) ExW.world⟩
  · show (ExW.net (1 / 3)).m.g.Edge u v ↔ _
    rw [ExW.usable.2]
    constructor
    · exact Or.inl
    · rintro (h | ⟨rfl, rfl⟩)
      · exact h
      · decide
  · show ExW.net'.m.g.Edge u v ↔ _
    rw [ExW.usable'.2]
    exact ExW.edge u v

/-! ### C57 -/

/-- **C57** If `admits_voc` is False for a node `x` that is no decision, then the maximal expected utility is the same whatever
distribution `x` has given its parents. -/
theorem C57_no_value_of_control {cid : Net} (h : cid.Analysable) (hn : NamesOk cid.g) {pick : Pick} {tpick : List Node → Nat}
    {setOrd : ListOrder} (hset : ∀ l, (setOrd l).Perm l) (h1 : cid.m.agents.length ≤ 1) (hr : cid.m.Recalls) {x : Node}
    (hx : x ∈ cid.g.nodes) (hxd : ∀ b, cid.m.role x ≠ .decision b) {a : Agent} (ha : a ∈ cid.m.agents)
    (hv : admitsVoc pick tpick setOrd cid x = .ok false)
    {n1 n2 : Net} (hU1 : n1.Usable) (hU2 : n2.Usable) (hr1 : ∀ v, n1.m.role v = cid.m.role v)
    (hE1 : ∀ u v, n1.g.Edge u v ↔ cid.g.Edge u v) (hE2 : ∀ u v, n2.g.Edge u v ↔ cid.g.Edge u v)
    (hw : SameWorld (fun v => v = x ∨ v ∈ n1.m.decisions) n1 n2) :
    ∃ r, n1.IsMaxEU a r ∧ n2.IsMaxEU a r := by
  obtain ⟨rg, order, q1, _, j1, j2, _⟩ := h.requisiteGraph pick tpick hset
  obtain ⟨b, p1, p2⟩ := C56_admits_voc h hn hset h1 hr hx q1
  have hno : ∀ u b, cid.m.role u = .utility b → ¬ rg.g.DescEq x u := by
    rw [hv] at p1
    cases p1
    intro u b hu hd
    exact absurd (p2.2 ⟨hxd, u, b, hu, hd⟩) (by simp)
  have key : ∀ {n n' : Net}, n.Usable → n'.Usable → (∀ v, n.m.role v = cid.m.role v) → (∀ u v, n.g.Edge u v ↔ cid.g.Edge u v) →
      (∀ u v, n'.g.Edge u v ↔ cid.g.Edge u v) → SameWorld (fun v => v = x ∨ v ∈ n.m.decisions) n n' →
      ∀ m, m.Usable → OnlyRules n n.m.decisions m → ∃ m', m'.Usable ∧ OnlyRules n' n'.m.decisions m' ∧ m.EU a ≤ m'.EU a := by
    intro n n' hU hU' hro hE hE' hw m hm hO
    have j2' := j2.transfer (m := n.m) (m' := cid.m) (fun n => (hro n).symm) (fun u v => (hE u v).symm)
    have j1' := j1.congr (m := n.m) (m' := cid.m) (fun n => (hro n).symm) (fun u v => (hE u v).symm)
    have hmem : ∀ d, d ∈ order ↔ d ∈ n.m.decisions := fun d => by rw [j1'.all, decisions_role]
    obtain ⟨m', k1, k2, k3⟩ := dominates hU hU' j2' j1'.nodup (agent := a)
      (fun d hd => by
        obtain ⟨b, hb⟩ := (j1'.all d).1 hd
        rw [hb, h.owner h1 ha (e := d) (b := b) (Or.inl (by rw [← hro]; exact hb))]) (fun u => by rw [hw.roles]) hw.nodes hw.outcomes
      (X := fun v => v = x) (fun v hv u hu => by
        subst hv
        exact hno u a (by rw [← hro]; exact hu)) (fun u v e => (hE' u v).2 ((j2.sub u v e)))
      (fun v hv hvo hvx b hb => hw.kernels v hv (fun q => q.elim hvx (fun q => hvo ((hmem v).2 q))) b hb) hm (hO.congr (fun w => (hmem w).symm))
    exact ⟨m', k1, k2.congr (fun w => by rw [hmem, hw.decisions]), k3⟩
  have hag : ∀ d b, n1.m.role d = .decision b → b = a := fun e b he => h.owner h1 ha (Or.inl (by rw [← hr1]; exact he))
  obtain ⟨r, hr⟩ := exists_maxEU hU1 hag
  refine ⟨r, hr, hr.of_dominates (key hU1 hU2 hr1 hE1 hE2 hw) (key hU2 hU1 (fun v => by rw [hw.roles, hr1]) hE2 hE1 ?_)⟩
  have := hw.symm
  exact ⟨this.nodes, this.roles, this.outcomes, fun v hv hd => this.kernels v hv (fun q => hd (q.imp id (hw.decisions v).2))⟩

/-- The distribution of `W` does not matter in the example. -/
example : admitsVoc (fun _ => 0) (fun _ => 0) id exInfoNet "W" = .ok false ∧
    ∃ r, (ExW.net (1 / 3)).IsMaxEU 0 r ∧ (ExW.net (1 / 2)).IsMaxEU 0 r := by
  have hv : admitsVoc (fun _ => 0) (fun _ => 0) id exInfoNet "W" = .ok false := by decide +kernel
  have hw := ExW.world2
  refine ⟨hv, C57_no_value_of_control exInfoNet_analysable ⟨by decide +kernel, by decide +kernel⟩ (fun _ => List.Perm.refl _) (by decide)
    ExW.recalls (x := "W") (by decide) (fun b h => by simp [Macid.role, exInfoNet, exInfo, Dict.get?] at h) (by decide) hv ExW.usable.1 ExW.usable2.1 (fun v => by rw [ExW.usable.2]; rfl)
    (fun u v => ?_) (fun u v => ?_) ⟨hw.nodes, hw.roles, hw.outcomes, fun v hv hd => hw.kernels v hv (by simpa using hd)⟩⟩
  · show (ExW.net (1 / 3)).m.g.Edge u v ↔ _
    rw [ExW.usable.2]
    rfl
  · show (ExW.net (1 / 2)).m.g.Edge u v ↔ _
    rw [ExW.usable2.2]
    rfl

/-- **C57** hence an agent that may set `x` as well gains nothing -/
theorem C57_control_gains_nothing {net : Net} (hU : net.Usable) (hn : NamesOk net.g) {pick : Pick} {tpick : List Node → Nat}
    {setOrd : ListOrder} (hset : ∀ l, (setOrd l).Perm l) (h1 : net.m.agents.length ≤ 1) (hr : net.m.Recalls) {x : Node}
    (hx : x ∈ net.g.nodes) (hxd : ∀ b, net.m.role x ≠ .decision b) {a : Agent} (ha : a ∈ net.m.agents)
    (hv : admitsVoc pick tpick setOrd net x = .ok false) :
    ∃ r, net.IsMaxEU a r ∧ ∀ net', net'.Usable → OnlyRules net (x :: net.m.decisions) net' → net'.EU a ≤ r := by
  have main : ∀ net', net'.Usable → OnlyRules net (x :: net.m.decisions) net' → ∃ r, net.IsMaxEU a r ∧ net'.IsMaxEU a r := by
    intro net' hU' hO
    refine C57_no_value_of_control hU.analysable hn hset h1 hr hx hxd ha hv hU hU' (fun _ => rfl) (fun _ _ => Iff.rfl)
      (fun u v => by rw [hO.g]) ⟨fun v => by rw [hO.g], fun v => by rw [hO.m], fun v _ => by rw [hO.dom], fun v _ hvd b _ => ?_⟩
    exact hO.kernel (by simpa using hvd) b
  obtain ⟨r, hr1, _⟩ := main net hU (.rfl' _ _)
  refine ⟨r, hr1, fun net' hU' hO => ?_⟩
  obtain ⟨s, hs1, hs2⟩ := main net' hU' hO
  rw [hr1.unique hs1]
  exact hs2.bound net' hU' (.rfl' _ _)

/-- the same example: controlling `W` is worth nothing -/
example : ∃ r, (ExW.net (1 / 3)).IsMaxEU 0 r ∧
    ∀ net', net'.Usable → OnlyRules (ExW.net (1 / 3)) ("W" :: (ExW.net (1 / 3)).m.decisions) net' → net'.EU 0 ≤ r := by
  have hm := ExW.usable.2
  refine C57_control_gains_nothing ExW.usable.1 (pick := fun _ => 0) (tpick := fun _ => 0) (setOrd := id)
    (by show NamesOk (ExW.net (1 / 3)).m.g; rw [hm]; exact ⟨by decide +kernel, by decide +kernel⟩)
    (fun _ => List.Perm.refl _) (by rw [hm]; decide) (by rw [hm]; exact ExW.recalls) (by show "W" ∈ (ExW.net (1 / 3)).m.g.nodes; rw [hm]; decide)
    (fun b h => by rw [hm] at h; simp [Macid.role, exInfo, Dict.get?] at h) (by rw [hm]; decide) (by decide +kernel)

end Verif

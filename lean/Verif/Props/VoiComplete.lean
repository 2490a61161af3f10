import Verif.Lemmas.Clever
import Verif.Props.Worth

/-!
# Property C84: the criterion for value of information is complete
-/

namespace Verif

open Graph Relation Macid Net

/-- an influence diagram without parameters that has one decision, `d`, of agent 0, and no edges out of utilities -/
structure OneDecision (net : Net) (d : Node) : Prop where
  fresh : net.Fresh
  roles : net.m.Consistent
  base : net.base = Macid.new ∨ net.base = Macid.newCid
  staffed : net.Staffed
  names : NamesOk net.g
  agents : net.m.agents.length ≤ 1
  dec : ∀ e b, net.m.role e = .decision b ↔ e = d ∧ b = 0
  leaf : ∀ u v a, net.m.role u = .utility a → ¬ net.g.Edge u v

theorem OneDecision.analysable {net : Net} {d : Node} (h : OneDecision net d) : net.Analysable :=
  ⟨h.roles, h.base, h.staffed, Or.inl h.fresh.1⟩

theorem OneDecision.isDec {net : Net} {d : Node} (h : OneDecision net d) : net.m.role d = .decision 0 := (h.dec d 0).2 ⟨rfl, rfl⟩

theorem OneDecision.node {net : Net} {d : Node} (h : OneDecision net d) : d ∈ net.g.nodes :=
  h.roles.nodes d (Or.inl (decisions_role.2 ⟨0, h.isDec⟩))

theorem plus_edge {g : Graph} {x d u v : Node} : (g.plus x d).Edge u v ↔ g.Edge u v ∨ (u = x ∧ v = d) := by
  unfold Graph.plus Graph.Edge
  simp only [List.mem_cons, Prod.mk.injEq]
  exact or_comm

theorem plus_acyclic {g : Graph} (hac : g.Acyclic) {x d : Node} (h : ¬ g.DescEq d x) : (g.plus x d).Acyclic := by
  intro v hv
  have key : ∀ a b, TransGen (g.plus x d).Edge a b → TransGen g.Edge a b ∨ (ReflTransGen g.Edge a x ∧ ReflTransGen g.Edge d b) := by
    intro a b hab
    induction hab with
    | single e =>
      rcases plus_edge.1 e with q | ⟨rfl, rfl⟩
      · exact Or.inl (.single q)
      · exact Or.inr ⟨.refl, .refl⟩
    | tail _ e ih =>
      rcases plus_edge.1 e with q | ⟨rfl, rfl⟩
      · rcases ih with ih | ⟨i1, i2⟩
        · exact Or.inl (ih.tail q)
        · exact Or.inr ⟨i1, i2.tail q⟩
      · rcases ih with ih | ⟨i1, _⟩
        · exact Or.inr ⟨ih.to_reflTransGen, .refl⟩
        · exact Or.inr ⟨i1, .refl⟩
  rcases key v v hv with q | ⟨q1, q2⟩
  · exact hac v q
  · exact h (q2.trans q1)

/-! ## C84 -/

/-- **C84** If `admits_voi` is True for the chance node `x`, then the diagram can be given CPDs under which observing `x` strictly
increases the maximal expected utility. -/
theorem C84_voi_complete {net : Net} {d : Node} (h : OneDecision net d) {pick : Pick} {tpick : List Node → Nat} {setOrd : ListOrder}
    (hset : ∀ l, (setOrd l).Perm l) {x : Node} (hxn : x ∈ net.g.nodes) (hx : net.m.role x = .chance)
    (hv : admitsVoi pick tpick setOrd net d x = .ok true) :
    ∃ rels cid, net.addCpds rels = (cid, .ok ()) ∧ cid.m = net.m ∧ cid.Usable ∧
      ∃ r1 r2, r2 < r1 ∧ (∃ n, Observing cid d x n) ∧ (∀ n, Observing cid d x n → n.IsMaxEU 0 r1) ∧
        (∃ n, NotObserving cid d x n) ∧ ∀ n, NotObserving cid d x n → n.IsMaxEU 0 r2 := by
  have hw : net.g.WF := h.roles.wf
  obtain ⟨b, e1, e2⟩ := C52_single_decision h.analysable h.names pick tpick hset h.agents hxn h.isDec (fun e b q => ((h.dec e b).1 q).1)
  rw [hv] at e1
  obtain ⟨hndesc, hreq⟩ := e2.1 (Except.ok.inj e1).symm
  obtain ⟨hxd, a, u, ra, ru0, hdu, Z, hZ, hD⟩ := hreq
  have ha : a = 0 := ((h.dec d a).1 ra).2
  subst ha
  have ru : net.m.role u = .utility 0 := ru0
  have hplus : (net.g.plus x d).Acyclic := plus_acyclic hw.acyclic hndesc
  have hux : u ≠ x := by rintro rfl; rw [hx] at ru; simp at ru
  have hleaf : ∀ v, ¬ (net.g.plus x d).Edge u v := by
    intro v q
    rcases plus_edge.1 q with q | ⟨q, _⟩
    · exact h.leaf u v 0 ru q
    · exact hux q
  obtain ⟨P, hP, hw0, hh, hu, _⟩ := Plan.ofRequisite (g := net.g.plus x d) hplus hxd hdu hleaf hZ hD
  have hsub : ∀ u v, (net.g.plus x d).Edge u v → v ≠ d → net.g.Edge u v := by
    intro u v q hv
    rcases plus_edge.1 q with q | ⟨_, q⟩
    · exact q
    · exact absurd q hv
  have hnodes : ∀ i ∈ P.allCells, P.node i ∈ net.g.nodes := fun i hi => hP.nodes (g := net.g.plus x d) (fun u v q => by
    rcases plus_edge.1 q with q | ⟨rfl, rfl⟩
    · exact hw.edgeNodes u v q
    · exact ⟨hxn, h.node⟩) hi
  obtain ⟨rels, cid, k1, k2, _, _, _, k6, _, k8, k9⟩ := Net.allowing h.fresh hw (free := (· = d)) (fun _ => (P.wires true).dom_sorted)
    (fun _ => (P.wires true).dom_ne) (Wiring.allows hw (hP.loc true hsub))
  have hU := k9 h.roles h.base h.staffed
  have hg : cid.g = net.g := by show cid.m.g = net.m.g; rw [k2]
  have hdc : ∀ e, e ∈ cid.m.decisions ↔ e = d := by
    intro e
    rw [decisions_role, k2]
    constructor
    · rintro ⟨b, q⟩; exact ((h.dec e b).1 q).1
    · rintro rfl; exact ⟨0, h.isDec⟩
  -- every version plays the game
  have hArena : ∀ n n', SameWorld (· ∈ cid.m.decisions) cid n → (∀ u v, net.g.Edge u v → v ≠ d → n.g.Edge u v) → n'.Usable →
      OnlyRules n n.m.decisions n' → Arena n' P true d := by
    intro n n' hs he hU' hO
    have hdn : ∀ e, e ∈ n.m.decisions ↔ e = d := fun e => (hs.decisions e).trans (hdc e)
    have hgn : n'.g = n.g := hO.g
    have hnn : ∀ v, v ∈ n'.g.nodes ↔ v ∈ net.g.nodes := fun v => by rw [hgn, hs.nodes, hg]
    have hdom : ∀ v ∈ net.g.nodes, n'.dom v = (P.wires true).dom := fun v hv => by
      rw [hO.dom, hs.outcomes v (hg ▸ hv), k6 v hv]
    have hrole : ∀ v, n'.m.role v = net.m.role v := fun v => by rw [hO.m, hs.roles, k2]
    refine ⟨hU', fun v hv => hdom v ((hnn v).1 hv), fun v hv hvd a ha => ?_, by rw [hrole, hu]; exact ru, fun i hi q => ?_,
      by rw [hrole]; exact h.isDec, hP.loc true (fun u v q hv => by rw [hgn]; exact he u v (hsub u v q hv) hv), fun i hi => (hnn _).2 (hnodes i hi),
      fun i hi => hP.atD hi⟩
    · have hv' := (hnn v).1 hv
      have ha' : cid.InDom a := fun w hw => by
        have hw' : w ∈ net.g.nodes := by rw [← hg]; exact hw
        rw [k6 w hw', ← hdom w hw']; exact ha w ((hnn w).2 hw')
      rw [hO.kernel (fun q => hvd ((hdn v).1 q)), hs.kernels v (hg ▸ hv') (fun q => hvd ((hdc v).1 q)) a ha']
      exact k8 v hv' hvd a ha'
    · rw [hrole] at q
      rcases hP.child hi with e | ⟨v, e⟩
      · exact e
      · rcases plus_edge.1 e with e | ⟨e, _⟩
        · exact absurd e (h.leaf _ v 0 q)
        · rw [e, hx] at q; simp at q
  have hag : ∀ n, SameWorld (· ∈ cid.m.decisions) cid n → ∀ e b, n.m.role e = .decision b → b = 0 := fun n hs e b q => by
    rw [hs.roles, k2] at q; exact ((h.dec e b).1 q).2
  have hdd : d ∈ cid.m.decisions := (hdc d).2 rfl
  have hdn : d ∈ net.g.nodes := h.node
  obtain ⟨n1, hn1⟩ := exists_observing (x := x) hU (hg ▸ hxn) hdd (by rw [hg]; exact hndesc)
  obtain ⟨n2, hn2⟩ := exists_notObserving (x := x) hU hdd
  obtain ⟨r2, hr2⟩ := exists_maxEU (agent := 0) hn2.usable (hag n2 hn2.same)
  refine ⟨rels, cid, k1, k2, hU, P.prize, r2, ?_, ⟨n1, hn1⟩, fun n hn => ?_, ⟨n2, hn2⟩, fun n hn => ?_⟩
  · obtain ⟨n', q1, q2, rfl⟩ := hr2.reached
    have hA := hArena n2 n' hn2.same (fun u v q hv => (hn2.edges u v).2 ⟨by rw [hg]; exact q, fun k => hv k.2⟩) q1 q2
    refine hA.loses (Or.inl rfl) (Or.inr rfl) (fun v hv s b s' b' => ?_)
    rw [q2.g] at hv
    obtain ⟨hv1, hv2⟩ := (hn2.edges v d).1 hv
    have hvd : (net.g.plus x d).Edge v d := plus_edge.2 (Or.inl (hg ▸ hv1))
    exact P.world_alike hP.ok P.allCells hvd (fun _ e => hv2 ⟨by rw [e, hw0], rfl⟩) (fun i hi => Plan.mem_allCells.1 hi)
      (fun i hi e => hP.plain hplus hvd hi e) s b s' b'
  · have he : ∀ u v, net.g.Edge u v → v ≠ d → n.g.Edge u v := fun u v q _ => (hn.edges u v).2 (Or.inl (by rw [hg]; exact q))
    have hdn' : d ∈ n.g.nodes := (hn.same.nodes d).2 (hg ▸ hdn)
    refine ⟨?_, fun n' q1 q2 => (hArena n n' hn.same he q1 q2).EU_le⟩
    obtain ⟨n', q1, q2, q3⟩ := realize1 hn.usable hdn' (σ := P.clever d) (hP.clever_rule hn.usable.good.wf.acyclic (fun v hv => by
      rcases plus_edge.1 hv with q | ⟨q, _⟩
      · exact (hn.edges v d).2 (Or.inl (by rw [hg]; exact q))
      · exact (hn.edges v d).2 (Or.inr ⟨q, rfl⟩)) (by rw [hn.same.outcomes d (hg ▸ hdn), k6 d hdn]))
    have q2' : OnlyRules n n.m.decisions n' := q2.congr (fun w => by
      rw [(hn.same.decisions w), hdc]; simp)
    have hA := hArena n n' hn.same he q1 q2'
    refine ⟨n', q1, q2', hA.wins (fun a ha => ?_)⟩
    have hin : n.InDom a := (q2.inDom a).1 ha.1
    have hpos := ha.2 d (by show d ∈ n'.g.nodes; rw [q2.g]; exact hdn')
    have : 0 < P.clever d a := by rw [← q3 a hin]; exact hpos
    exact hP.clever_guess this
  · refine IsMaxEU.same hn2.usable hn.usable (hag n2 hn2.same) ?_ (fun u v => ?_) hr2
    · exact ((hn2.same.symm.trans hn.same)).congr (fun v q => (hn2.same.decisions v).2 q)
    · rw [hn2.edges, hn.edges]

/-- **C84** So `admits_voi` is True for a chance node exactly if the diagram can be given CPDs for which observing it increases the
maximal expected utility. -/
theorem C84_voi_iff {net : Net} {d : Node} (h : OneDecision net d) {pick : Pick} {tpick : List Node → Nat} {setOrd : ListOrder}
    (hset : ∀ l, (setOrd l).Perm l) {x : Node} (hxn : x ∈ net.g.nodes) (hx : net.m.role x = .chance) :
    admitsVoi pick tpick setOrd net d x = .ok true ↔
      ∃ rels cid, net.addCpds rels = (cid, .ok ()) ∧ cid.m = net.m ∧ cid.Usable ∧
        ∃ n1 n2 r1 r2, Observing cid d x n1 ∧ NotObserving cid d x n2 ∧ n1.IsMaxEU 0 r1 ∧ n2.IsMaxEU 0 r2 ∧ r2 < r1 := by
  constructor
  · intro hv
    obtain ⟨rels, cid, k1, k2, k3, r1, r2, hlt, ⟨n1, hn1⟩, hm1, ⟨n2, hn2⟩, hm2⟩ := C84_voi_complete h hset hxn hx hv
    exact ⟨rels, cid, k1, k2, k3, n1, n2, r1, r2, hn1, hn2, hm1 n1 hn1, hm2 n2 hn2, hlt⟩
  · rintro ⟨rels, cid, k1, k2, k3, n1, n2, r1, r2, hn1, hn2, hm1, hm2, hlt⟩
    obtain ⟨b, e1, e2⟩ := C52_single_decision h.analysable h.names pick tpick hset h.agents hxn h.isDec (fun e b q => ((h.dec e b).1 q).1)
    cases b with
    | true => exact e1
    | false =>
      have hg : cid.g = net.g := by show cid.m.g = net.m.g; rw [k2]
      obtain ⟨r, m1, m2⟩ := C53_no_value_of_information h.analysable h.names hset h.agents (fun a ds hds => recall_single (d := d) (fun e he =>
        ((h.dec e a).1 ((hds e).1 he)).1)) hxn h.isDec e1 hn1.usable hn2.usable (fun v => by rw [hn1.same.roles, k2])
        (fun u v => by rw [hn1.edges, hg]) (fun u v => by rw [hn2.edges, hg])
        (((hn1.same.symm.trans hn2.same)).congr (fun v q => (hn1.same.decisions v).2 q))
      rw [hm1.unique m1, hm2.unique m2] at hlt
      exact absurd hlt (lt_irrefl _)

/-- **C84** In such a diagram with such CPDs `quantitative_voi`, whenever it returns a number, returns a positive one. -/
theorem C84_quantitative_positive {net : Net} {d : Node} (h : OneDecision net d) {pick : Pick} {tpick : List Node → Nat} {setOrd : ListOrder}
    (hset : ∀ l, (setOrd l).Perm l) {x : Node} (hxn : x ∈ net.g.nodes) (hx : net.m.role x = .chance)
    (hv : admitsVoi pick tpick setOrd net d x = .ok true) :
    ∃ rels cid, net.addCpds rels = (cid, .ok ()) ∧ cid.m = net.m ∧ cid.Usable ∧
      ∀ (pick : Pick) (tpick : List Node → Nat) (ord setOrd : List Node → List Node) (rnd1 rnd2 : Nat), (∀ l, (ord l).Perm l) → (∀ l, (setOrd l).Perm l) →
        ∀ r, quantitativeVoi pick tpick ord setOrd rnd1 rnd2 cid d x = .ok r → 0 < r := by
  obtain ⟨rels, cid, k1, k2, k3, r1, r2, hlt, ⟨n1, hn1⟩, hm1, ⟨n2, hn2⟩, hm2⟩ := C84_voi_complete h hset hxn hx hv
  refine ⟨rels, cid, k1, k2, k3, fun pick tpick ord setOrd rnd1 rnd2 ho hs r hr => ?_⟩
  obtain ⟨s1, s2, e, _, _, q1, _, q2⟩ := C58_voi_single_decision k3 (by show NamesOk cid.m.g; rw [k2]; exact h.names) (d := d)
    (fun e b => by rw [k2]; exact h.dec e b) ho hs hr
  rw [e, ← (hm1 n1 hn1).unique (q1 n1 hn1), ← (hm2 n2 hn2).unique (q2 n2 hn2)]
  linarith

/-- `X → C ← Y`, `C` is observed, `Y` matters: `C → D → U ← Y`; `V` is irrelevant -/
def exCollider : Macid :=
  ⟨⟨["X", "C", "Y", "D", "U", "V"], [("X", "C"), ("Y", "C"), ("C", "D"), ("D", "U"), ("Y", "U"), ("V", "X")]⟩,
    [(0, ["D"])], [(0, ["U"])], [("D", 0)], [("U", 0)]⟩

def exColliderNet : Net := ⟨exCollider, [], [], [], Macid.new⟩

theorem exCollider_one : OneDecision exColliderNet "D" := by
  refine ⟨⟨rfl, rfl, rfl⟩, C15_constructor_consistent [("X", "C"), ("Y", "C"), ("C", "D"), ("D", "U"), ("Y", "U"), ("V", "X")] [(0, ["D"])] [(0, ["U"])] _
    (by decide +kernel) (by decide) (by decide) (by decide) (by decide), Or.inl rfl, ⟨fun a => Iff.rfl, fun a ha => Or.inl ?_⟩,
    ⟨by decide +kernel, by decide +kernel⟩, by decide, fun e b => ?_, fun u v a hu he => ?_⟩
  · have : a = 0 := by simpa [exColliderNet, exCollider, Dict.keys] using ha
    subst this
    exact ⟨⟨"D", by decide⟩, ⟨"U", by decide⟩⟩
  · rw [role_decision]
    by_cases h : e = "D"
    · subst h; simp [exColliderNet, exCollider, Dict.get?, eq_comm]
    · simp [exColliderNet, exCollider, Dict.get?, h, Ne.symm h]
  · have h1 : u ∈ ["X", "Y", "C", "D", "V"] := by
      have he' : (u, v) ∈ [("X", "C"), ("Y", "C"), ("C", "D"), ("D", "U"), ("Y", "U"), ("V", "X")] := he
      simp only [List.mem_cons, Prod.mk.injEq, List.not_mem_nil, or_false] at he' ⊢
      rcases he' with q | q | q | q | q | q <;> simp [q.1]
    have key : ∀ u ∈ ["X", "Y", "C", "D", "V"], ∀ b, exCollider.role u ≠ .utility b := by
      intro u hu b
      simp only [List.mem_cons, List.not_mem_nil, or_false] at hu
      rcases hu with rfl | rfl | rfl | rfl | rfl <;> simp [Macid.role, exCollider, Dict.get?]
    exact key u h1 a hu

/-- the hypotheses of `C84_voi_complete` are met by a node that informs only through a collider -/
example : OneDecision exColliderNet "D" ∧ "X" ∈ exColliderNet.g.nodes ∧ exColliderNet.m.role "X" = .chance ∧
    admitsVoi (fun _ => 0) (fun _ => 0) id exColliderNet "D" "X" = .ok true ∧ ¬ exColliderNet.g.Edge "X" "D" ∧
    admitsVoi (fun _ => 0) (fun _ => 0) id exColliderNet "D" "C" = .ok true :=
  ⟨exCollider_one, by decide, by decide, by decide +kernel, by decide, by decide +kernel⟩

end Verif

import Verif.Props.RiMeaning
import Verif.Props.Related
import Verif.Props.SimpleCids
import Verif.Props.Total
import Verif.Props.Fair

/-!
# C130: an optimal policy looks at the requisite observations only
-/

namespace Verif

open Graph Relation Macid Net

/-- **C130** In a diagram whose decisions all belong to one agent there is an optimal policy that looks at nothing but what `requisite_graph` leaves: the
probability it gives to a choice of `d` is the same for any two circumstances that agree on the parents of `d` in the requisite graph. -/
theorem C130_requisite_rules {cid : Net} (hU : cid.Usable) {a : Agent} (hag : ∀ d b, cid.m.role d = .decision b → b = a)
    {pick : Pick} {tpick : List Node → Nat} {setOrd : ListOrder} (hset : ∀ l, (setOrd l).Perm l) {rg : Net}
    (hrg : requisiteGraph pick tpick setOrd cid = .ok rg) :
    ∃ n, n.Usable ∧ OnlyRules cid cid.m.decisions n ∧ cid.IsMaxEU a (n.EU a) ∧
      ∀ d ∈ cid.m.decisions, ∀ b b', cid.InDom b → cid.InDom b' → b d = b' d → (∀ p, rg.g.Edge p d → b p = b' p) → n.kernel d b = n.kernel d b' := by
  classical
  have hA := hU.analysable
  obtain ⟨rg', order, q1, _, j1, j2, _⟩ := hA.requisiteGraph pick tpick hset
  rw [hrg] at q1
  cases q1
  have hmem : ∀ d, d ∈ order ↔ d ∈ cid.m.decisions := fun d => by rw [j1.all, decisions_role]
  have hag' : ∀ d ∈ order, cid.m.role d = .decision a := fun d hd => by
    obtain ⟨b, hb⟩ := (j1.all d).1 hd
    rw [hb, hag d b hb]
  have hon : ∀ d ∈ order, d ∈ cid.g.nodes := fun d hd => hU.roles.nodes d (Or.inl (Dict.mem_keys.2 ⟨a, role_decision.1 (hag' d hd)⟩))
  have hun : ∀ u ∈ cid.utils a, u ∈ cid.g.nodes := fun u hu =>
    hU.roles.nodes u (Or.inr (Dict.mem_keys.2 ⟨a, (role_utility hU.roles).1 ((mem_utils hU).1 hu)⟩))
  obtain ⟨r, hr⟩ := exists_maxEU hU hag
  obtain ⟨n1, hU1, hO1, hEU1⟩ := hr.reached
  have hO1' := hO1.congr (fun w => (hmem w).symm)
  obtain ⟨B1, p1, p2, p3, p4, p5⟩ := trim_W (m := cid.m) hU.good.wf j2 j1.nodup hag' hon (us := cid.utils a) (fun u hu => (mem_utils hU).1 hu) hun
    (bn_prob hU1.good hU1.normalised) (by show n1.m.g = _; rw [hO1.m])
    (fun v hv => by show n1.dom v ≠ []; rw [hO1.dom]; exact (dom_props hU.good hv).2) order [] rfl
  have p3' : B1.dom = cid.dom := by rw [p3]; exact hO1.dom
  have hE1 : ∀ u v, B1.g.Edge u v ↔ rg.g.Edge u v := by
    intro u v
    rw [p2, Graph.mem_trimmed]
    constructor
    · rintro ⟨h1, h2⟩
      by_cases hv : v ∈ order
      · exact h2 hv
      · exact j2.other u v h1 hv
    · exact fun h => ⟨j2.sub u v h, fun _ => h⟩
  have hnod : B1.g.nodes = cid.g.nodes := by rw [p2]; rfl
  obtain ⟨n, hUn, hOn, hkn⟩ := realize order hU j1.nodup hon (σ := B1.k) (fun d hd => by
    have hdB : d ∈ B1.g.nodes := by rw [hnod]; exact hon d hd
    refine ⟨(p1.scope d hdB).mono (fun u hu => hu.imp id (fun q => j2.sub u d ((hE1 u d).1 q))), fun b hb => ?_, fun b hb => ?_⟩
    · show ((cid.dom d).map _).sum = 1
      rw [← p3']
      exact p1.norm d hdB b (fun p hp => by rw [p3']; exact hb p (j2.sub p d ((hE1 p d).1 hp)))
    · exact p1.nonneg d hdB b (fun u hu => by rw [p3']; exact hb u (hu.imp id (fun q => j2.sub u d ((hE1 u d).1 q)))))
  have hk : ∀ v ∈ cid.g.nodes, ∀ b, cid.InDom b → n.kernel v b = B1.k v b := by
    intro v _ b hb
    by_cases hvo : v ∈ order
    · exact hkn v hvo b hb
    · rw [hOn.kernel hvo, p4 v hvo]
      show _ = n1.kernel v b
      rw [hO1'.kernel hvo]
  have hW : ∀ F, n.bn.W F = B1.W F := by
    intro F
    unfold BN.W
    show sumOver n.dom n.g.nodes _ _ = _
    rw [hnod, p3', hOn.dom, hOn.g]
    apply sumOver_congr
    intro b hb _
    congr 1
    show ((n.m.g.nodes).map (fun v => n.kernel v b)).prod = (cid.m.g.nodes.map (fun v => B1.k v b)).prod
    rw [hOn.m]
    congr 1
    apply List.map_congr_left
    intro v hv
    exact hk v hv b hb
  have hEU : n.EU a = r := by
    refine le_antisymm (hr.bound n hUn (hOn.congr hmem)) ?_
    rw [← hEU1, EU_eq hU1, EU_eq hUn, hO1.m, hOn.m, hW]
    exact p5
  refine ⟨n, hUn, hOn.congr hmem, hEU ▸ hr, fun d hd b b' hb hb' h1 h2 => ?_⟩
  have hd' := (hmem d).2 hd
  rw [hkn d hd' b hb, hkn d hd' b' hb']
  refine p1.scope d (by rw [hnod]; exact hon d hd') b b' (fun u hu => ?_)
  rcases hu with rfl | hu
  · exact h1
  · exact h2 u ((hE1 u d).1 hu)

/-- the trim example, as the constructor builds it -/
def trimM : Macid :=
  match Macid.init trimEdges [(0, ["D1", "D2"])] [(0, ["U"])] with
  | .ok m => m
  | .error _ => ⟨Graph.empty, [], [], [], []⟩

def trimNet : Net := ⟨trimM, [], [], [], Macid.newCid⟩

theorem trim_init : Macid.init trimEdges [(0, ["D1", "D2"])] [(0, ["U"])] = .ok trimM := by decide +kernel

theorem trim_built : trimExample = .ok trimNet := by
  unfold trimExample cidOf
  rw [trim_init]
  rfl

theorem trim_roles : trimM.Consistent :=
  C15_constructor_consistent _ _ _ _ trim_init (by simp [Dict.keys]) (by simp [Dict.keys]) (by decide) (by decide +kernel)

theorem trim_staffed : trimNet.Staffed := staffed_of (by decide +kernel)

theorem trim_names : NamesOk trimM.g := ⟨by decide +kernel, by decide +kernel⟩

theorem trim_analysable : trimNet.Analysable := ⟨trim_roles, .inr rfl, trim_staffed, .inl rfl⟩

theorem trim_owner (d : Node) (b : Agent) (h : trimM.role d = .decision b) : (d = "D1" ∨ d = "D2") ∧ b = 0 := by
  have h1 := Dict.mem_of_get? (role_decision.1 h)
  rw [show trimM.decisionAgent = [("D1", 0), ("D2", 0)] by decide +kernel] at h1
  simp only [List.mem_cons, Prod.mk.injEq, List.not_mem_nil, or_false] at h1
  rcases h1 with ⟨rfl, rfl⟩ | ⟨rfl, rfl⟩ <;> simp

theorem trim_recall (pick : Pick) (tpick : List Node → Nat) : Macid.sufficientRecall pick tpick trimM none = .ok true :=
  recall_of trim_roles trim_names (by decide +kernel) (by decide +kernel) pick tpick

theorem trim_recalls : trimM.Recalls := by
  obtain ⟨b, h1, h2⟩ := C19_sufficient_recall_all trimM trim_roles trim_names (fun _ => 0) (fun _ => 0) (by decide +kernel)
  rw [trim_recall] at h1
  cases h1
  have h3 := h2.1 rfl 0 (by decide +kernel) ["D1", "D2"] (by decide +kernel)
  intro a ds hds c hc
  refine h3 c (TransGen.mono (p := fun a b => a ∈ ["D1", "D2"] ∧ b ∈ ["D1", "D2"] ∧ a ≠ b ∧ trimM.RReach a b) (fun u v huv => ?_) c c hc)
  obtain ⟨k1, k2, k3, k4⟩ := huv
  have l1 := (trim_owner u a ((hds u).1 k1)).1
  have l2 := (trim_owner v a ((hds v).1 k2)).1
  exact ⟨by simpa using l1, by simpa using l2, k3, k4⟩

/-- **C130** The trim example: whatever order networkx and sets use, the requisite graph has the seven edges below.  Whatever CPDs the diagram is given,
some optimal policy chooses `D1` looking at `Y1` only and `D2` looking at `Y2` only, and CPDs do exist. -/
theorem C130_trim_example : ∃ net, trimExample = .ok net ∧ net.Fresh ∧ net.g.edges.length = 12 ∧
    (∀ p, net.g.Edge p "D2" ↔ p ∈ ["Y1", "Y2", "D1", "Z1", "Z2"]) ∧
    (∀ (pick : Pick) (tpick : List Node → Nat) (setOrd : ListOrder), (∀ l, (setOrd l).Perm l) →
      Macid.sufficientRecall pick tpick net.m none = .ok true ∧
      ∃ rg, requisiteGraph pick tpick setOrd net = .ok rg ∧
        ∀ u v, rg.g.Edge u v ↔ (u, v) ∈ [("Y1", "D1"), ("Y1", "Y2"), ("Y2", "D2"), ("Y2", "U"), ("D1", "Y2"), ("Z1", "Z2"), ("D2", "U")]) ∧
    (∀ cid : Net, cid.Usable → cid.m = net.m → ∃ n, n.Usable ∧ OnlyRules cid ["D1", "D2"] n ∧ cid.IsMaxEU 0 (n.EU 0) ∧
      (∀ b b', cid.InDom b → cid.InDom b' → b "D1" = b' "D1" → b "Y1" = b' "Y1" → n.kernel "D1" b = n.kernel "D1" b') ∧
      ∀ b b', cid.InDom b → cid.InDom b' → b "D2" = b' "D2" → b "Y2" = b' "Y2" → n.kernel "D2" b = n.kernel "D2" b') ∧
    ∃ rels cid, net.addCpds rels = (cid, .ok ()) ∧ cid.m = net.m ∧ cid.Usable := by
  have key : ∀ (cid : Net), cid.Analysable → cid.m = trimM → ∀ (pick : Pick) (tpick : List Node → Nat) (setOrd : ListOrder), (∀ l, (setOrd l).Perm l) →
      ∃ rg, requisiteGraph pick tpick setOrd cid = .ok rg ∧
        ∀ u v, rg.g.Edge u v ↔ (u, v) ∈ [("Y1", "D1"), ("Y1", "Y2"), ("Y2", "D2"), ("Y2", "U"), ("D1", "Y2"), ("Z1", "Z2"), ("D2", "U")] := by
    intro cid hA hm pick tpick setOrd hset
    obtain ⟨rg, rg', h1, h2, -, h3⟩ := C115_requisite_graph (net := trimNet) (net' := cid) trim_analysable hA (by decide +kernel) trim_recalls
      (fun v => by unfold Net.g; rw [hm]; rfl) (fun u v => by unfold Net.g; rw [hm]; rfl) (fun v => by rw [hm]; rfl)
      (pick := fun _ => 0) (tpick := fun _ => 0) (setOrd := id) (fun _ => .refl _) (pick' := pick) (tpick' := tpick) hset
    refine ⟨rg', h2, fun u v => (h3 u v).trans ?_⟩
    have : (match requisiteGraph (fun _ => 0) (fun _ => 0) id trimNet with
      | .ok rg => decide (rg.g.edges ⊆ [("Y1", "D1"), ("Y1", "Y2"), ("Y2", "D2"), ("Y2", "U"), ("D1", "Y2"), ("Z1", "Z2"), ("D2", "U")] ∧
          [("Y1", "D1"), ("Y1", "Y2"), ("Y2", "D2"), ("Y2", "U"), ("D1", "Y2"), ("Z1", "Z2"), ("D2", "U")] ⊆ rg.g.edges)
      | .error _ => false) = true := by decide +kernel
    rw [h1] at this
    simp only [decide_eq_true_eq] at this
    exact ⟨fun h => this.1 h, fun h => this.2 h⟩
  refine ⟨trimNet, trim_built, ⟨rfl, rfl, rfl⟩, by decide +kernel, fun p => ?_, fun pick tpick setOrd hset =>
    ⟨trim_recall pick tpick, key trimNet trim_analysable rfl pick tpick setOrd hset⟩, fun cid hU hm => ?_, ?_⟩
  · have : ∀ q ∈ trimNet.g.edges, q.2 = "D2" → q.1 ∈ ["Y1", "Y2", "D1", "Z1", "Z2"] := by decide +kernel
    have h2 : ∀ q ∈ ["Y1", "Y2", "D1", "Z1", "Z2"], (q, "D2") ∈ trimNet.g.edges := by decide +kernel
    exact ⟨fun h => this _ h rfl, fun h => h2 p h⟩
  · obtain ⟨rg, h1, h2⟩ := key cid hU.analysable hm (fun _ => 0) (fun _ => 0) id (fun _ => .refl _)
    obtain ⟨n, n1, n2, n3, n4⟩ := C130_requisite_rules hU (a := 0) (fun d b h => (trim_owner d b (by rw [hm] at h; exact h)).2) (fun _ => .refl _) h1
    have hds : cid.m.decisions = ["D1", "D2"] := by rw [hm]; decide +kernel
    rw [hds] at n2 n4
    refine ⟨n, n1, n2, n3, fun b b' hb hb' e1 e2 => ?_, fun b b' hb hb' e1 e2 => ?_⟩
    · refine n4 "D1" (by simp) b b' hb hb' e1 (fun p hp => ?_)
      have := (h2 _ _).1 hp
      simp at this
      subst this
      exact e2
    · refine n4 "D2" (by simp) b b' hb hb' e1 (fun p hp => ?_)
      have := (h2 _ _).1 hp
      simp at this
      subst this
      exact e2
  · have hp : trimNet.g.nodes.Perm ["Y1", "D1", "Y2", "D2", "U", "Z1", "Z2"] := by decide +kernel
    have hr : ∀ q ∈ ["Y1", "D1", "Y2", "D2", "U", "Z1", "Z2"].map (fun v => (v, Rel.seq [0, 1])), q.2.Respects trimNet.g (fun _ => [0, 1]) q.1 := by
      intro q hq
      simp only [List.mem_map] at hq
      obtain ⟨v, _, rfl⟩ := hq
      exact ⟨by simp, by decide, fun x hx => hx⟩
    obtain ⟨cid, k1, k2, _, _, _, _, _, _, k3⟩ := C113_assignable (net := trimNet) ⟨rfl, rfl, rfl⟩ trim_roles.wf (by decide)
      (fun v => by rw [hp.mem_iff]; simp) hr
    exact ⟨_, cid, k1, k2, k3.2 trim_roles (.inr rfl) trim_staffed⟩

end Verif

import Verif.Lemmas.EfgRuns
import Verif.Props.Equilibria

/-!
# Extensive form games (C66, C67, C69)
-/

namespace Verif
open Relation Graph Macid Net BN

/-! ## C66 -/

/-- **C66** If `macid_to_efg` returns a game, the network is unchanged and the game is the tree in which the decisions and
their observations are instantiated in a topological order: where the nodes before `v` have been instantiated, chance or the
owner of `v` moves; chance moves as the CPD says; at the end everybody gets their expected utility given what has happened. -/
theorem C66_game_tree {net net' : Net} (hU : net.Usable) (hj : Joined net.g) {pick : Pick} {tpick : List Node → Nat}
    {ord : List Node → List Node} (hord : ∀ l, (ord l).Perm l) {decs : List Node} {agents : List Agent} {t : Efg}
    (h : macidToEfg pick tpick ord net decs agents = (net', .ok t)) :
    net' = net ∧ ∃ nodes, nodes.Nodup ∧ (∀ v, v ∈ nodes ↔ net.InTree decs v) ∧ nodes.Pairwise (fun a b => ¬ net.g.Desc b a) ∧
      IsTree net decs agents nodes t ∧ Labelled net decs t := by
  obtain ⟨h1, nodes, h2, h3, _, h5, h6, h7⟩ := macidToEfg_spec hU.good hU.normalised hj hord h
  exact ⟨h1, nodes, h2, h3, h5, h6, h7⟩

/-- **C66** One leaf for each joint instantiation of the nodes, and nothing else: the number of leaves is the product of
the numbers of outcomes, every leaf belongs to exactly one instantiation and every instantiation to exactly one leaf. -/
theorem C66_leaves {net : Net} (hU : net.Usable) {decs : List Node} {agents : List Agent} {nodes : List Node} {t : Efg} (hn : nodes.Nodup)
    (hm : ∀ v ∈ nodes, v ∈ net.g.nodes) (ht : IsTree net decs agents nodes t) :
    (∃ leaves : List (List Nat), leaves.Nodup ∧ leaves.length = (nodes.map (fun v => (net.dom v).length)).prod ∧
      ∀ idx, idx ∈ leaves ↔ t.payoffs.get? idx ≠ none) ∧
    (∀ idx, t.payoffs.get? idx ≠ none → ∃! xs, At net.dom nodes idx xs) ∧
    (∀ xs, List.Forall₂ (fun v x => x ∈ net.dom v) nodes xs → ∃! idx, At net.dom nodes idx xs ∧ t.payoffs.get? idx ≠ none) := by
  have hleaf : ∀ idx, t.payoffs.get? idx ≠ none ↔ ∃ xs, At net.dom nodes idx xs := by
    intro idx
    constructor
    · intro h
      obtain ⟨r, hr⟩ := Option.ne_none_iff_exists'.1 h
      obtain ⟨a, ha⟩ := ht.noMorePayoffs idx r hr
      exact ⟨_, ha⟩
    · rintro ⟨xs, hxs⟩
      obtain ⟨a, rfl⟩ := hxs.assign hn
      rw [ht.payoff a idx hxs]
      simp
  refine ⟨⟨product (nodes.map (fun v => List.range (net.dom v).length)), ?_, ?_, ?_⟩, ?_, ?_⟩
  · apply nodup_product
    intro l hl
    obtain ⟨v, _, rfl⟩ := List.mem_map.1 hl
    exact List.nodup_range
  · rw [length_product, List.map_map]
    congr 1
    apply List.map_congr_left
    intro v _
    simp
  · intro idx
    rw [hleaf, at_product]
  · intro idx h
    obtain ⟨xs, hxs⟩ := (hleaf idx).1 h
    exact ⟨xs, hxs, fun ys hys => hys.functional hxs⟩
  · intro xs hxs
    have : ∃ idx, At net.dom nodes idx xs := by
      clear ht hleaf hn hm
      induction hxs with
      | nil => exact ⟨[], .root⟩
      | @cons v x vs xs hv _ ih =>
        obtain ⟨idx, h⟩ := ih
        obtain ⟨i, hi⟩ := List.mem_iff_getElem?.1 hv
        exact ⟨i :: idx, .branch hi h⟩
    obtain ⟨idx, h⟩ := this
    refine ⟨idx, ⟨h, (hleaf idx).2 ⟨_, h⟩⟩, ?_⟩
    rintro idx' ⟨h', _⟩
    exact h'.injective (fun v hv => (dom_props hU.good (hm v hv)).1) h

/-- **C66** A game is returned whenever it can be: the nodes of the tree depend on nothing outside it, everything that can be
chosen has positive probability, the other decisions have been taken, and the decisions of an agent can be told apart. -/
theorem C66_returns {net : Net} (hU : net.Usable) {decs : List Node} {agents : List Agent} (hT : net.Treeable decs agents) (pick : Pick)
    (tpick : List Node → Nat) {ord : List Node → List Node} (hord : ∀ l, (ord l).Perm l) :
    ∃ t, macidToEfg pick tpick ord net decs agents = (net, .ok t) :=
  macidToEfg_runs hU.good hU.normalised hU.roles hT pick tpick hord

/-- **C66** No game is returned if a node of the tree depends on a node outside the tree, or if an instantiation is impossible. -/
theorem C66_fails {net : Net} (hU : net.Usable) (hj : Joined net.g) {decs : List Node} {agents : List Agent} (pick : Pick)
    (tpick : List Node → Nat) {ord : List Node → List Node} (hord : ∀ l, (ord l).Perm l)
    (hbad : (∃ v p, net.InTree decs v ∧ net.g.Edge p v ∧ ¬ net.InTree decs p) ∨
      ∃ a : Assign, (∀ v, net.InTree decs v → a v ∈ net.dom v) ∧ 
        ∀ nodes, (∀ v, v ∈ nodes ↔ net.InTree decs v) → net.P (Ctx (Given nodes a)) = 0) :
    ∀ net' t, macidToEfg pick tpick ord net decs agents ≠ (net', .ok t) := by
  intro net' t h
  obtain ⟨_, nodes, h1, h2, _, h4, _⟩ := C66_game_tree hU hj hord h
  rcases hbad with ⟨v, p, hv, he, hp⟩ | ⟨a, ha, h0⟩
  · obtain ⟨vs, post, e⟩ := List.append_of_mem ((h2 v).2 hv)
    have := h4.closed vs v post e p he
    exact hp ((h2 p).1 (by rw [e]; simp [this]))
  · obtain ⟨idx, hidx⟩ := At.exists (dom := net.dom) (vs := nodes) (a := a) (fun w hw => ha w ((h2 w).1 hw))
    exact h4.possible a idx hidx (h0 nodes h2)

namespace Net

theorem joined_of {net : Net} (hG : Good net) (h : ∀ u ∈ net.g.nodes, ∀ v ∈ net.g.nodes, v ∈ component net.g u) : Joined net.g :=
  fun u hu v hv => (mem_component hG.wf).1 (h u hu v hv)

/-- the conditions for a tree, to be checked by evaluation -/
def treeCheck (net : Net) (decs : List Node) (agents : List Agent) : Bool :=
  let tree := decs ++ decs.flatMap net.g.parents
  net.g.nodes.all (fun u => net.g.nodes.all (fun v => decide (v ∈ component net.g u))) &&
  decs.all (fun d => agents.any (fun ag => decide (net.m.role d = .decision ag))) &&
  tree.all (fun v => (net.g.parents v).all (fun p => decide (p ∈ tree))) &&
  decs.all (fun d => decs.all (fun d' => decide (net.m.decisionAgent.get? d = net.m.decisionAgent.get? d' →
    net.g.parents d = net.g.parents d' → d = d'))) &&
  net.m.decisions.all (fun d => decide (d ∉ decs → net.undecided d = false)) &&
  tree.all (fun v => decide ((net.cpds.get? v).map (·.kind) ≠ some .tabular)) &&
  agents.all (fun ag => match net.m.agentUtilities.get? ag with
    | none => false
    | some us => decide (us ≠ []) && us.all (fun u => decide (u ∈ net.g.nodes ∧ u ∉ tree))) &&
  (product (tree.map net.dom)).all (fun xs => decide (net.P (Ctx (tree.zip xs)) = 0 → ∃ p ∈ tree.zip xs, ∃ q ∈ tree.zip xs, p.1 = q.1 ∧ p.2 ≠ q.2))

theorem treeable_of {net : Net} (hU : net.Usable) (hnames : NamesOk net.g) {decs : List Node} {agents : List Agent}
    (h : treeCheck net decs agents = true) : net.Treeable decs agents := by
  unfold treeCheck at h
  simp only [Bool.and_eq_true, List.all_eq_true, List.any_eq_true, decide_eq_true_eq] at h
  obtain ⟨⟨⟨⟨⟨⟨⟨h1, h2⟩, h3⟩, h4⟩, h5⟩, h6⟩, h7⟩, h8⟩ := h
  have hG := hU.good
  have htree : ∀ v, v ∈ decs ++ decs.flatMap net.g.parents ↔ net.InTree decs v := by
    intro v
    rw [List.mem_append, List.mem_flatMap]
    simp only [Graph.mem_parents, InTree]
  have howner : ∀ d ∈ decs, ∃ agent ∈ agents, net.m.role d = .decision agent := by
    intro d hd
    obtain ⟨ag, hag, hr⟩ := h2 d hd
    exact ⟨ag, hag, hr⟩
  refine ⟨hnames, joined_of hG (fun u hu v hv => h1 u hu v hv), howner, ?_, ?_, ?_, ?_, ?_, ?_⟩
  · intro v hv p hp
    exact (htree p).1 (h3 v ((htree v).2 hv) p (Graph.mem_parents.2 hp))
  · intro d hd d' hd'
    exact h4 d hd d' hd'
  · intro d hd hdd
    exact h5 d hd hdd
  · intro v hv c hc hk
    apply h6 v ((htree v).2 hv)
    rw [hc, Option.map_some, hk]
  · intro ag hag
    have := h7 ag hag
    cases hu : net.m.agentUtilities.get? ag with
    | none => rw [hu] at this; cases this
    | some us =>
      rw [hu] at this
      simp only [Bool.and_eq_true, List.all_eq_true, decide_eq_true_eq] at this
      exact ⟨us, rfl, this.1, fun u hu => ⟨(this.2 u hu).1, fun h => (this.2 u hu).2 ((htree u).2 h)⟩⟩
  · intro nodes hn a ha
    obtain ⟨b, hb, hab⟩ := exists_inDom hG a (fun v => v ∈ nodes) (fun v hv _ => ha v hv)
    have hin : ∀ v ∈ decs ++ decs.flatMap net.g.parents, v ∈ net.g.nodes := by
      intro v hv
      rcases (htree v).1 hv with h | ⟨d, _, he⟩
      · obtain ⟨ag, _, hr⟩ := howner v h
        exact hU.roles.nodes v (Or.inl (decisions_role.2 ⟨ag, hr⟩))
      · exact (hG.wf.edgeNodes _ _ he).1
    have hmem : (decs ++ decs.flatMap net.g.parents).map b ∈ product ((decs ++ decs.flatMap net.g.parents).map net.dom) := by
      rw [mem_product, List.forall₂_map_left_iff, List.forall₂_map_right_iff, List.forall₂_same]
      exact fun v hv => hb v (hin v hv)
    have hne := h8 _ hmem
    rw [zip_map_self] at hne
    have hpos : net.P (Ctx (Given (decs ++ decs.flatMap net.g.parents) b)) ≠ 0 := by
      intro h0
      obtain ⟨p, hp, q, hq, e1, e2⟩ := hne h0
      obtain ⟨v, _, rfl⟩ := List.mem_map.1 hp
      obtain ⟨w, _, rfl⟩ := List.mem_map.1 hq
      simp only at e1 e2
      exact e2 (by rw [e1])
    intro h0
    apply hpos
    have hle : net.P (Ctx (Given (decs ++ decs.flatMap net.g.parents) b)) ≤ net.P (Ctx (Given nodes a)) := by
      rw [P_eq_W, P_eq_W]
      apply W_le (bn_prob hG hU.normalised)
      intro c _
      by_cases hc : Ctx (Given (decs ++ decs.flatMap net.g.parents) b) c = true
      · have : Ctx (Given nodes a) c = true := by
          simp only [Ctx, Given, List.all_map, List.all_eq_true, Function.comp, decide_eq_true_eq] at hc ⊢
          intro v hv
          rw [hc v ((htree v).2 (hn v hv)), hab v hv]
        simp [hc, this]
      · rw [if_neg hc]
        split
        · exact zero_le_one
        · exact le_refl _
    have hge : 0 ≤ net.P (Ctx (Given (decs ++ decs.flatMap net.g.parents) b)) := by
      rw [P_eq_W]
      apply W_nonneg (bn_prob hG hU.normalised)
      intro c _
      split <;> simp
    rw [h0] at hle
    exact le_antisymm hle hge

end Net

/-- The hypotheses are met: the second player sees the move of the first. -/
theorem C66_example : ExG.net.Usable ∧ ExG.net.Treeable ["D1", "D2"] [0, 1] ∧
    ∃ t, (macidToEfg (fun _ => 0) (fun _ => 0) id ExG.net ["D1", "D2"] [0, 1]).2 = .ok t ∧
      t.infosets = [⟨0, "D1", [0, 1]⟩, ⟨1, "D2", [0, 1]⟩, ⟨1, "D2", [0, 1]⟩] ∧
      t.moves = [([], .decision 0), ([0], .decision 1), ([1], .decision 2)] ∧
      t.payoffs = [([0, 0], [1, 0]), ([0, 1], [0, 2]), ([1, 0], [0, 2]), ([1, 1], [1, 0])] := by
  refine ⟨ExG.usable.1, treeable_of ExG.usable.1 ExG.names (by decide +kernel), ?_⟩
  exact ⟨⟨[0, 1], [⟨0, "D1", [0, 1]⟩, ⟨1, "D2", [0, 1]⟩, ⟨1, "D2", [0, 1]⟩], [([], .decision 0), ([0], .decision 1), ([1], .decision 2)],
    [([0, 0], [1, 0]), ([0, 1], [0, 2]), ([1, 0], [0, 2]), ([1, 1], [1, 0])],
    [((0, []), 0), ((1, [("D1", 0)]), 1), ((1, [("D1", 1)]), 2)],
    [([0], [("D1", 0)]), ([1], [("D1", 1)]), ([0, 0], [("D1", 0), ("D2", 0)]), ([0, 1], [("D1", 0), ("D2", 1)]),
      ([1, 0], [("D1", 1), ("D2", 0)]), ([1, 1], [("D1", 1), ("D2", 1)])]⟩, by decide +kernel, rfl, rfl, rfl⟩

/-- **C66** No game is returned if the owner of one of the decisions is not among the agents of the game. -/
theorem C66_missing_player {net : Net} (hU : net.Usable) (hj : Joined net.g) {decs : List Node} {agents : List Agent} (pick : Pick)
    (tpick : List Node → Nat) {ord : List Node → List Node} (hord : ∀ l, (ord l).Perm l) {d : Node} (hd : d ∈ decs)
    {agent : Agent} (hr : net.m.role d = .decision agent) (ha : agent ∉ agents) :
    ∀ net' t, macidToEfg pick tpick ord net decs agents ≠ (net', .ok t) := by
  intro net' t h
  obtain ⟨_, nodes, _, h2, h3, _, h4, _⟩ := macidToEfg_spec hU.good hU.normalised hj hord h
  obtain ⟨vs, post, e⟩ := List.append_of_mem ((h2 d).2 (Or.inl hd))
  obtain ⟨a, hin, _⟩ := exists_inDom hU.good (fun _ => 0) (fun _ => False) (by simp)
  obtain ⟨idx, hidx⟩ := At.exists (dom := net.dom) (vs := vs) (a := a) (fun w hw => hin w (h3 w (by rw [e]; simp [hw])))
  obtain ⟨ag, _, _, h5, h6, _⟩ := h4.decision vs d post e hd a idx hidx
  rw [hr] at h5
  cases h5
  exact ha h6

/-- Leaving out the owner of the second decision raises KeyError. -/
theorem C66_missing_player_example : ExG.net.Usable ∧ Joined ExG.net.g ∧ ExG.net.m.role "D2" = .decision 1 ∧
    (macidToEfg (fun _ => 0) (fun _ => 0) id ExG.net ["D1", "D2"] [0]).2 = .error .key :=
  ⟨ExG.usable.1, joined_of ExG.usable.1.good (by decide +kernel), by decide +kernel, by decide +kernel⟩

/-- FALSE that every game can be converted: here an observed chance node depends on a chance node that nobody observes, and the
KeyError for its missing value is not caught. -/
theorem C66_unobserved_counterexample : (ExS.net [0, 1]).Usable ∧ Joined (ExS.net [0, 1]).g ∧
    (∃ v p, (ExS.net [0, 1]).InTree ["D1", "D2"] v ∧ (ExS.net [0, 1]).g.Edge p v ∧ ¬ (ExS.net [0, 1]).InTree ["D1", "D2"] p) ∧
    (macidToEfg (fun _ => 0) (fun _ => 0) id (ExS.net [0, 1]) ["D1", "D2"] [0, 1]).2 = .error .key := by
  have hU := C63_example.1
  refine ⟨hU, joined_of hU.good (by decide +kernel), ?_, by decide +kernel⟩
  have hg : (ExS.net [0, 1]).g = ExS.m.g := congrArg Macid.g ExS.usable.2
  refine ⟨"X", "A", Or.inr ⟨"D2", by simp, ?_⟩, ?_, ?_⟩
  · rw [hg]; decide +kernel
  · rw [hg]; decide +kernel
  · unfold InTree
    rw [hg]
    rintro (h | ⟨d, h, he⟩)
    · revert h; decide +kernel
    · simp only [List.mem_cons, List.not_mem_nil, or_false] at h
      rcases h with rfl | rfl <;> revert he <;> unfold Graph.Edge <;> decide +kernel

/-! ## C67 -/

/-- **C67** Two positions at which decisions are taken belong to the same information set iff the decisions have the same owner
and the same observations with the same values. -/
theorem C67_same_information {net : Net} {decs : List Node} {agents : List Agent} {nodes : List Node} {t : Efg} (ht : IsTree net decs agents nodes t)
    {vs vs' post post' : List Node} {d d' : Node} (e : nodes = vs ++ d :: post) (e' : nodes = vs' ++ d' :: post') (hd : d ∈ decs) (hd' : d' ∈ decs)
    {a a' : Assign} {idx idx' : List Nat} (h : At net.dom vs idx (vs.map a)) (h' : At net.dom vs' idx' (vs'.map a')) :
    (t.moves.get? idx = t.moves.get? idx' ↔ net.m.role d = net.m.role d' ∧ net.g.parents d = net.g.parents d' ∧ ∀ p, net.g.Edge p d → a p = a' p) := by
  obtain ⟨ag, i, s, h1, h2, h3, h4, h5, h6⟩ := ht.decision vs d post e hd a idx h
  obtain ⟨ag', i', s', h1', h2', h3', h4', h5', h6'⟩ := ht.decision vs' d' post' e' hd' a' idx' h'
  rw [h3, h3', h1, h1']
  simp only [Option.some.injEq, Move.decision.injEq, Role.decision.injEq]
  constructor
  · rintro rfl
    have hk := ht.keys _ _ _ h6 h6'
    simp only [Prod.mk.injEq] at hk
    obtain ⟨k1, k2⟩ := given_eq_map hk.2
    refine ⟨hk.1, k1, fun p hp => ?_⟩
    rw [← k1] at k2
    exact List.map_inj_left.1 k2 p (Graph.mem_parents.2 hp)
  · rintro ⟨rfl, hp, hv⟩
    rw [← hp] at h6'
    have : Given (net.g.parents d) a' = Given (net.g.parents d) a :=
      List.map_congr_left (fun p hp => by rw [hv p (Graph.mem_parents.1 hp)])
    rw [this, h6] at h6'
    exact Option.some.inj h6'

/-- **C67** If no two decisions of one agent have the same list of parents, two positions belong to the same information set iff
the same decision is taken there with the same values of its observations; the information set is labelled with the decision and
its actions are those of the decision. -/
theorem C67_information_sets {net : Net} {decs : List Node} {agents : List Agent} {nodes : List Node} {t : Efg} (ht : IsTree net decs agents nodes t)
    (hl : Labelled net decs t) (hdist : net.Distinct decs) {vs vs' post post' : List Node} {d d' : Node} (e : nodes = vs ++ d :: post)
    (e' : nodes = vs' ++ d' :: post') (hd : d ∈ decs) (hd' : d' ∈ decs) {a a' : Assign} {idx idx' : List Nat}
    (h : At net.dom vs idx (vs.map a)) (h' : At net.dom vs' idx' (vs'.map a')) :
    (t.moves.get? idx = t.moves.get? idx' ↔ d = d' ∧ ∀ p, net.g.Edge p d → a p = a' p) ∧
    ∃ i s, t.moves.get? idx = some (.decision i) ∧ t.infosets[i]? = some s ∧ net.m.role d = .decision s.player ∧ s.label = d ∧
      s.actions = net.dom d := by
  constructor
  · rw [C67_same_information ht e e' hd hd' h h']
    constructor
    · rintro ⟨h1, h2, h3⟩
      refine ⟨?_, h3⟩
      obtain ⟨ag, _, _, hr, _⟩ := ht.decision vs d post e hd a idx h
      have hr' : net.m.role d' = .decision ag := by rw [← h1, hr]
      exact hdist d hd d' hd' (by rw [role_decision.1 hr, role_decision.1 hr']) h2
    · rintro ⟨rfl, h3⟩
      exact ⟨rfl, rfl, h3⟩
  · obtain ⟨ag, i, s, h1, h2, h3, h4, h5, h6⟩ := ht.decision vs d post e hd a idx h
    obtain ⟨s', k1, k2, d1, a1, k3, k4, k5, k6, k7⟩ := hl _ _ h6
    rw [h4] at k1
    cases k1
    have hd1 : d1 = d := hdist d1 k3 d hd (by rw [k4, role_decision.1 h1]) (given_eq_map k5).1.symm
    subst hd1
    exact ⟨i, s, h3, h4, by rw [h5]; exact h1, k6, k7 hdist⟩

namespace ExI

/-- one agent takes two decisions without observing anything -/
def m (ds : List Node) : Macid := ⟨⟨["D1", "U", "D2"], [("D1", "U"), ("D2", "U")]⟩, [(0, ds)], [(0, ["U"])], [("D1", 0), ("D2", 0)], [("U", 0)]⟩

def u : Func := fun pv => .ok (.val (if pv "D1" = pv "D2" then 0 else 1))

def rels (l : List Outcome) : List (Node × Rel) := [("D1", .seq [0, 1]), ("D2", .seq l), ("U", .func u)]

def net (l : List Outcome) : Net := ((Net.mk (m ["D1", "D2"]) [] [] [] Macid.new).addCpds (rels l)).1

theorem honest (l : List Outcome) : ∀ p ∈ rels l, Honest p.2 := by
  intro p hp
  simp only [rels, List.mem_cons, List.not_mem_nil, or_false] at hp
  rcases hp with rfl | rfl | rfl
  · trivial
  · trivial
  · intro pv; simp [u]

theorem usable : (net [0, 1]).Usable ∧ (net [0, 1, 2]).Usable :=
  ⟨(usable_of_build (edges := [("D1", "U"), ("D2", "U")]) (ad := [(0, ["D1", "D2"])]) (au := [(0, ["U"])]) (rels := rels [0, 1])
    (m := m ["D1", "D2"]) (by decide +kernel)
    (by rw [← show ((Net.mk (m ["D1", "D2"]) [] [] [] Macid.new).addCpds (rels [0, 1])).2 = .ok () by decide +kernel]; rfl)
    (honest _) (by decide +kernel)).1,
   (usable_of_build (edges := [("D1", "U"), ("D2", "U")]) (ad := [(0, ["D1", "D2"])]) (au := [(0, ["U"])]) (rels := rels [0, 1, 2])
    (m := m ["D1", "D2"]) (by decide +kernel)
    (by rw [← show ((Net.mk (m ["D1", "D2"]) [] [] [] Macid.new).addCpds (rels [0, 1, 2])).2 = .ok () by decide +kernel]; rfl)
    (honest _) (by decide +kernel)).1⟩

end ExI

/-- FALSE that information sets always belong to one decision: the decision is not part of the key.  If an agent takes two
decisions without observing anything, there is one information set for both, so that no strategy can choose different actions
in them.  If the second decision has more actions, an IndexError is raised. -/
theorem C67_shared_counterexample :
    (ExI.net [0, 1]).Usable ∧ Joined (ExI.net [0, 1]).g ∧
    (∃ t, (macidToEfg (fun _ => 0) (fun _ => 0) id (ExI.net [0, 1]) ["D1", "D2"] [0]).2 = .ok t ∧ t.infosets = [⟨0, "D1", [0, 1]⟩] ∧
      t.moves = [([], .decision 0), ([0], .decision 0), ([1], .decision 0)] ∧
      t.payoffs = [([0, 0], [0]), ([0, 1], [1]), ([1, 0], [1]), ([1, 1], [0])]) ∧
    (ExI.net [0, 1, 2]).Usable ∧
    (macidToEfg (fun _ => 0) (fun _ => 0) id (ExI.net [0, 1, 2]) ["D1", "D2"] [0]).2 = .error .index := by
  refine ⟨ExI.usable.1, joined_of ExI.usable.1.good (by decide +kernel), ?_, ExI.usable.2, by decide +kernel⟩
  exact ⟨⟨[0], [⟨0, "D1", [0, 1]⟩], [([], .decision 0), ([0], .decision 0), ([1], .decision 0)],
    [([0, 0], [0]), ([0, 1], [1]), ([1, 0], [1]), ([1, 1], [0])], [((0, []), 0)],
    [([0], [("D1", 0)]), ([1], [("D1", 1)]), ([0, 0], [("D1", 0), ("D2", 0)]), ([0, 1], [("D1", 0), ("D2", 1)]),
      ([1, 0], [("D1", 1), ("D2", 0)]), ([1, 1], [("D1", 1), ("D2", 1)])]⟩, by decide +kernel, rfl, rfl, rfl⟩

/-! ## C69 -/


/-- the probabilities of an information set as a distribution of the CPD -/
theorem behavior_dist {dom : List Outcome} (hn : dom.Nodup) {ps : List Rat} (hl : ps.length = dom.length) :
    (∀ (k : Nat) (x : Outcome), dom[k]? = some x → given ((dom.zip ps).map (fun p => (p.1, some p.2))) x = ps[k]?) ∧
      Dict.keys ((dom.zip ps).map (fun p => (p.1, some p.2))) = dom := by
  constructor
  · induction dom generalizing ps with
    | nil => simp
    | cons y ys ih =>
      cases ps with
      | nil => simp at hl
      | cons p ps =>
        rw [List.nodup_cons] at hn
        intro k x hk
        cases k with
        | zero =>
          simp only [List.getElem?_cons_zero, Option.some.injEq] at hk
          subst hk
          simp [given, Dict.get?]
        | succ k =>
          have hk' : ys[k]? = some x := by simpa using hk
          have hxy : y ≠ x := fun e => hn.1 (e ▸ List.mem_of_getElem? hk')
          have := ih hn.2 (by simpa using hl) k x hk'
          simp only [given] at this ⊢
          simpa [Dict.get?, hxy] using this
  · simp only [Dict.keys, List.map_map, Function.comp_def]
    exact List.map_fst_zip (by omega)

/-- **C69** From a behaviour strategy profile of the game `behavior_to_cpd` makes a decision rule for every decision: with the
observations that hold at a position of the tree, every action has the probability that the profile gives it there. -/
theorem C69_behavior_to_cpd {net : Net} (hU : net.Usable) {decs : List Node} {agents : List Agent} {nodes : List Node} {t : Efg}
    (ht : IsTree net decs agents nodes t) (hl : Labelled net decs t) (hdist : net.Distinct decs)
    (hm : ∀ v ∈ nodes, v ∈ net.g.nodes) (hdn : ∀ d ∈ decs, d ∈ nodes) {b : Behavior} (hb : IsBehavior t b) :
    ∃ cs, net.behaviorToCpd t.keys b decs = .ok cs ∧ List.Forall₂ (fun d c => c.var = d ∧ c.evidence = net.g.parents d ∧ c.domain = net.dom d ∧
      ∀ vs post, nodes = vs ++ d :: post → ∀ a idx, At net.dom vs idx (vs.map a) → ∃ i, t.moves.get? idx = some (.decision i) ∧
        ∀ (k : Nat) (x : Outcome), (net.dom d)[k]? = some x → c.prob net.domain ((net.g.parents d).map a) x = (b i)[k]?) decs cs := by
  have hG := hU.good
  have key : ∀ d ∈ decs, ∃ c, net.behaviorCpd t.keys b d = .ok c ∧ (c.var = d ∧ c.evidence = net.g.parents d ∧ c.domain = net.dom d ∧
      ∀ vs post, nodes = vs ++ d :: post → ∀ a idx, At net.dom vs idx (vs.map a) → ∃ i, t.moves.get? idx = some (.decision i) ∧
        ∀ (k : Nat) (x : Outcome), (net.dom d)[k]? = some x → c.prob net.domain ((net.g.parents d).map a) x = (b i)[k]?) := by
    intro d hd
    have hdn' := hm d (hdn d hd)
    obtain ⟨vs0, post0, e0⟩ := List.append_of_mem (hdn d hd)
    have hdv : net.domain.get d = .ok (net.dom d) := by
      obtain ⟨c, hc, hd⟩ := hG.complete d hdn'
      rw [Dict.get_ok]
      unfold Net.dom
      rw [hd]; rfl
    have hagent : ∃ ag, net.m.decisionAgent.get? d = some ag := by
      obtain ⟨a, ha, _⟩ := exists_inDom hG (fun _ => 0) (fun _ => False) (by simp)
      obtain ⟨idx, hidx⟩ := At.exists (dom := net.dom) (vs := vs0) (a := a) (fun w hw => ha w (hm w (by rw [e0]; simp [hw])))
      obtain ⟨ag, _, _, h1, _⟩ := ht.decision vs0 d post0 e0 hd a idx hidx
      exact ⟨ag, role_decision.1 h1⟩
    obtain ⟨ag, hag⟩ := hagent
    have hparn : (net.g.parents d).Nodup := Graph.nodup_parents hG.wf.edgesNodup d
    have hkey : ∀ a : Assign, (∀ p, net.g.Edge p d → a p ∈ net.dom p) → ∃ i, t.keys.get? (ag, Given (net.g.parents d) a) = some i ∧
        (b i).length = (net.dom d).length ∧ (∀ x ∈ b i, 0 ≤ x) ∧ (b i).sum = 1 := by
      intro a ha
      obtain ⟨a', ha', hag'⟩ := exists_inDom hG a (fun p => net.g.Edge p d) (fun p hp _ => ha p hp)
      obtain ⟨idx, hidx⟩ := At.exists (dom := net.dom) (vs := vs0) (a := a') (fun w hw => ha' w (hm w (by rw [e0]; simp [hw])))
      obtain ⟨ag1, i, s, h1, h2, h3, h4, h5, h6⟩ := ht.decision vs0 d post0 e0 hd a' idx hidx
      have hag1 : ag1 = ag := by
        have := role_decision.1 h1
        rw [hag] at this
        exact (Option.some.inj this).symm
      rw [hag1] at h6
      have hgi : Given (net.g.parents d) a' = Given (net.g.parents d) a :=
        List.map_congr_left (fun p hp => by rw [hag' p (Graph.mem_parents.1 hp)])
      rw [hgi] at h6
      obtain ⟨s', k1, k2, d1, a1, k3, k4, k5, k6, k7⟩ := hl _ _ h6
      have hd1 : d1 = d := hdist d1 k3 d hd (by rw [k4, hag]) (given_eq_map k5).1.symm
      subst hd1
      have := hb i s' k1
      rw [k7 hdist] at this
      exact ⟨i, h6, this⟩
    -- values of the parents as an assignment
    have hpv : ∀ vals, Instantiation (net.g.parents d) net.domain vals → ∃ a : Assign, (∀ p, net.g.Edge p d → a p ∈ net.dom p) ∧
        vals = (net.g.parents d).map a ∧ (net.g.parents d).map (fun p => (p, (pvOf (net.g.parents d) vals p).getD 0)) = Given (net.g.parents d) a := by
      intro vals hv
      have h1 : List.Forall₂ (fun p x => pvOf (net.g.parents d) vals p = some x) (net.g.parents d) vals :=
        pvOf_forall₂ hparn hv.length
      have h2 : vals = (net.g.parents d).map (fun p => (pvOf (net.g.parents d) vals p).getD 0) := by
        have h3 : List.Forall₂ (fun p x => (pvOf (net.g.parents d) vals p).getD 0 = x) (net.g.parents d) vals := h1.imp (fun p x h => by rw [h]; rfl)
        rw [← List.forall₂_eq_eq_eq, List.forall₂_map_right_iff]
        exact h3.flip.imp (fun x p h => h.symm)
      refine ⟨fun p => (pvOf (net.g.parents d) vals p).getD 0, ?_, h2, rfl⟩
      intro p hp
      rw [h2] at hv
      unfold Instantiation at hv
      rw [List.forall₂_map_right_iff, List.forall₂_same] at hv
      obtain ⟨dm, hd1, hx⟩ := hv p (Graph.mem_parents.2 hp)
      unfold Net.dom
      rw [hd1]
      exact hx
    have hdomn := dom_props hG hdn'
    let δ : List Outcome → Outcome → Rat := fun vals x =>
      (((t.keys.get? (ag, (net.g.parents d).map (fun p => (p, (pvOf (net.g.parents d) vals p).getD 0)))).map b).getD [])[(net.dom d).idxOf x]?.getD 0
    have hδ : ∀ vals, Instantiation (net.g.parents d) net.domain vals → ∃ i,
        t.keys.get? (ag, (net.g.parents d).map (fun p => (p, (pvOf (net.g.parents d) vals p).getD 0))) = some i ∧
        (b i).length = (net.dom d).length ∧ (∀ x ∈ b i, 0 ≤ x) ∧ (b i).sum = 1 ∧ ∀ x, δ vals x = (b i)[(net.dom d).idxOf x]?.getD 0 := by
      intro vals hv
      obtain ⟨a, h1, h2, h3⟩ := hpv vals hv
      obtain ⟨i, k1, k2, k3, k4⟩ := hkey a h1
      rw [← h3] at k1
      exact ⟨i, k1, k2, k3, k4, fun x => by simp only [δ, k1, Option.map_some, Option.getD_some]⟩
    obtain ⟨c, hc, hc2, hc3⟩ := mkCpd_dist (kind := .stochastic) (v := d) (f := behaviorFunc ag (net.g.parents d) t.keys (net.dom d) b)
      (domain := net.dom d) (ps := net.g.parents d) (dom := net.domain) (card := net.card) (δ := δ) hdomn.1 hdomn.2 (by
        intro p hp
        have hpn := (hG.wf.edgeNodes p d (Graph.mem_parents.1 hp)).1
        obtain ⟨c, h1, h2⟩ := hG.complete p hpn
        exact ⟨c.domain, h2, by simp [card, getCpd, hpn, h1]⟩) (by
        intro vals hv
        obtain ⟨i, k1, k2, k3, k4, k5⟩ := hδ vals hv
        refine ⟨((net.dom d).zip (b i)).map (fun p => (p.1, some p.2)), ?_, ?_, ?_, ?_⟩
        · unfold behaviorFunc
          rw [k1]
          simp only
          rw [if_neg (by omega)]
        · rw [(behavior_dist hdomn.1 k2).2]; exact hdomn.1
        · intro x hx
          rw [(behavior_dist hdomn.1 k2).2] at hx
          exact hx
        · intro x hx
          have hk : (net.dom d)[(net.dom d).idxOf x]? = some x := by
            rw [List.getElem?_eq_getElem (List.idxOf_lt_length_iff.2 hx)]
            simp
          rw [(behavior_dist hdomn.1 k2).1 _ x hk, k5]
          have hlt : (net.dom d).idxOf x < (b i).length := by rw [k2]; exact List.idxOf_lt_length_iff.2 hx
          rw [List.getElem?_eq_getElem hlt]
          simp) (by
        intro vals hv x hx
        obtain ⟨i, k1, k2, k3, k4, k5⟩ := hδ vals hv
        have hlt : (net.dom d).idxOf x < (b i).length := by rw [k2]; exact List.idxOf_lt_length_iff.2 hx
        rw [k5, List.getElem?_eq_getElem hlt]
        exact k3 _ (List.getElem_mem hlt)) (by
        intro vals hv
        obtain ⟨i, k1, k2, k3, k4, k5⟩ := hδ vals hv
        rw [← k4]
        congr 1
        apply List.ext_getElem
        · rw [List.length_map, k2]
        · intro n h1 h2
          rw [List.getElem_map, k5, List.Nodup.idxOf_getElem hdomn.1, List.getElem?_eq_getElem h2]
          rfl)
    obtain ⟨f1, f2, _⟩ := mkCpd_fields hc
    refine ⟨c, ?_, f1, f2, hc2, ?_⟩
    · unfold behaviorCpd
      rw [hdv]
      simp only
      rw [if_neg (by simpa using hdn'), Dict.get_ok.2 hag]
      exact hc
    · intro vs post e a idx hidx
      obtain ⟨ag1, i, s, h1, h2, h3, h4, h5, h6⟩ := ht.decision vs d post e hd a idx hidx
      have hag1 : ag1 = ag := by
        have := role_decision.1 h1
        rw [hag] at this
        exact (Option.some.inj this).symm
      rw [hag1] at h6
      refine ⟨i, h3, fun k x hk => ?_⟩
      have hin := hidx.mem
      have hpe : ∀ p, net.g.Edge p d → a p ∈ net.dom p := fun p hp => hin p (ht.closed vs d post e p hp)
      have hinst : Instantiation (net.g.parents d) net.domain ((net.g.parents d).map a) := by
        obtain ⟨a', ha', hag'⟩ := exists_inDom hG a (fun p => net.g.Edge p d) (fun p hp _ => hpe p hp)
        have := inst_of_inDom hG ha' d
        rwa [List.map_congr_left (g := a) (fun p hp => hag' p (Graph.mem_parents.1 hp))] at this
      obtain ⟨i', k1, k2, k3, k4, k5⟩ := hδ _ hinst
      have hgi : (net.g.parents d).map (fun p => (p, (pvOf (net.g.parents d) ((net.g.parents d).map a) p).getD 0)) = Given (net.g.parents d) a :=
        List.map_congr_left (fun p hp => by simp [pvOf_map, restrict, hp])
      rw [hgi, h6] at k1
      cases k1
      rw [hc3 _ hinst x (List.mem_of_getElem? hk), k5]
      obtain ⟨hlt, hkx⟩ := List.getElem?_eq_some_iff.1 hk
      have : (net.dom d).idxOf x = k := by rw [← hkx]; exact List.Nodup.idxOf_getElem hdomn.1 k hlt
      rw [this, List.getElem?_eq_getElem (by omega)]
      rfl
  have hall : ∀ ds : List Node, (∀ d ∈ ds, d ∈ decs) → ∃ cs, mapPy (net.behaviorCpd t.keys b) ds = .ok cs ∧
      List.Forall₂ (fun d c => c.var = d ∧ c.evidence = net.g.parents d ∧ c.domain = net.dom d ∧
      ∀ vs post, nodes = vs ++ d :: post → ∀ a idx, At net.dom vs idx (vs.map a) → ∃ i, t.moves.get? idx = some (.decision i) ∧
        ∀ (k : Nat) (x : Outcome), (net.dom d)[k]? = some x → c.prob net.domain ((net.g.parents d).map a) x = (b i)[k]?) ds cs := by
    intro ds
    induction ds with
    | nil => exact fun _ => ⟨[], rfl, .nil⟩
    | cons d ds ih =>
      intro h
      obtain ⟨c, h1, h2⟩ := key d (h d (by simp))
      obtain ⟨cs, h3, h4⟩ := ih (fun d hd => h d (by simp [hd]))
      exact ⟨c :: cs, by rw [mapPy, h1, h3], .cons h2 h4⟩
  exact hall decs (fun d hd => hd)

/-- The hypotheses are met: in the example game, whatever tree is returned has behaviour strategies, and they become decision rules. -/
theorem C69_example : ∃ nodes t, IsTree ExG.net ["D1", "D2"] [0, 1] nodes t ∧ Labelled ExG.net ["D1", "D2"] t ∧
    ExG.net.Distinct ["D1", "D2"] ∧ (∀ v ∈ nodes, v ∈ ExG.net.g.nodes) ∧ (∀ d ∈ ["D1", "D2"], d ∈ nodes) ∧
    IsBehavior t (fun i => if i = 1 then [1 / 3, 2 / 3] else [1, 0]) ∧
    (match ExG.net.behaviorToCpd t.keys (fun i => if i = 1 then [1 / 3, 2 / 3] else [1, 0]) ["D1", "D2"] with
      | .ok cs => cs.map (fun c => (c.var, c.table))
      | .error _ => []) = [("D1", [[1, 0]]), ("D2", [[1 / 3, 2 / 3], [1, 0]])] := by
  obtain ⟨hU, hT, t, ht, h1, h2, h3⟩ := C66_example
  generalize hx : macidToEfg (fun _ => 0) (fun _ => 0) id ExG.net ["D1", "D2"] [0, 1] = x at ht
  obtain ⟨net', y⟩ := x
  simp only at ht
  subst ht
  obtain ⟨_, nodes, k1, k2, k3, k4, k5⟩ := C66_game_tree hU hT.joined (fun l => .refl l) hx
  refine ⟨nodes, t, k4, k5, hT.distinct, fun v hv => treeable_nodes hU.good hU.roles hT ((k2 v).1 hv), fun d hd => (k2 d).2 (Or.inl hd), ?_, ?_⟩
  · intro i s hs
    rw [h1] at hs
    match i with
    | 0 => simp only [List.getElem?_cons_zero, Option.some.injEq] at hs; subst hs; decide +kernel
    | 1 => simp only [List.getElem?_cons_succ, List.getElem?_cons_zero, Option.some.injEq] at hs; subst hs; decide +kernel
    | 2 => simp only [List.getElem?_cons_succ, List.getElem?_cons_zero, Option.some.injEq] at hs; subst hs; decide +kernel
    | i + 3 => simp at hs
  · have hk : t.keys = [((0, []), 0), ((1, [("D1", 0)]), 1), ((1, [("D1", 1)]), 2)] := by
      have : (match (macidToEfg (fun _ => 0) (fun _ => 0) id ExG.net ["D1", "D2"] [0, 1]).2 with
        | .ok t => t.keys
        | .error _ => []) = [((0, []), 0), ((1, [("D1", 0)]), 1), ((1, [("D1", 1)]), 2)] := by decide +kernel
      rw [hx] at this
      exact this
    rw [hk]
    decide +kernel

end Verif

import Verif.Model.SmallCids
import Verif.Props.PolicyReturns
import Verif.Props.Quantify
import Verif.Props.SimpleCids
import Verif.Props.Fair

/-!
# C132: what the small example diagrams are worth
-/

namespace Verif
open Net Graph Relation Macid

/-- The builder returns a diagram whose maximal expected utility is `r`, and whatever order networkx and sets use and whatever policy is drawn among the
optimal ones, `impute_optimal_policy` succeeds and `expected_utility({})` then returns `r`. -/
def WorthExactly (b : Py Net) (r : Rat) : Prop :=
  ∃ net, b = .ok net ∧ net.Usable ∧ net.IsMaxEU 0 r ∧
    ∀ (pick : Pick) (tpick : List Node → Nat) (ord setOrd : List Node → List Node) (rnd : Nat), (∀ l, (ord l).Perm l) → (∀ l, (setOrd l).Perm l) →
      ∃ n s, net.imputeOptimalPolicy pick tpick ord setOrd rnd = (n, .ok ()) ∧ n.Usable ∧ OnlyRules net net.m.decisions n ∧
        n.expectedUtility pick ord [] [] 0 = (s, .ok r)

/-- nodes that can be reached in `k` steps along edges in either direction -/
def nearB (g : Graph) : Nat → Node → Node → Bool
  | 0, u, v => decide (u = v)
  | k + 1, u, v => nearB g k u v || g.nodes.any (fun w => decide ((u, w) ∈ g.edges ∨ (w, u) ∈ g.edges) && nearB g k w v)

theorem nearB_connected {g : Graph} : ∀ {k : Nat} {u v : Node}, nearB g k u v = true → g.Connected u v
  | 0, u, v, h => by
    simp only [nearB, decide_eq_true_eq] at h
    subst h
    exact .refl
  | k + 1, u, v, h => by
    simp only [nearB, Bool.or_eq_true, List.any_eq_true, Bool.and_eq_true, decide_eq_true_eq] at h
    rcases h with h | ⟨w, _, h1, h2⟩
    · exact nearB_connected h
    · exact .head h1 (nearB_connected h2)

/-- the network that the builder makes -/
def netOf (b : Py Net) : Net :=
  match b with
  | .ok n => n
  | .error _ => ⟨⟨Graph.empty, [], [], [], []⟩, [], [], [], Macid.newCid⟩

/-- to be computed -/
def worthB (net : Net) : Bool :=
  (net.m.decisions.all fun d => decide (net.m.role d = .decision 0)) && (net.m.g.nodes.all fun u => net.m.g.nodes.all fun v => nearB net.m.g 3 u v) &&
  (net.cpds.all fun p => decide (p.2.kind ≠ .tabular)) && (net.m.agents.all fun a => decide (a ∈ net.m.agentDecisions.keys)) &&
  decide (Macid.sufficientRecall (fun _ => 0) (fun _ => 0) net.m none = .ok true) && (net.m.g.nodes.any fun u => decide (net.m.role u = .utility 0))

/-- what is known about a network that passes the check -/
structure Checked (net : Net) : Prop where
  usable : net.Usable
  names : NamesOk net.g
  one : ∀ d ∈ net.m.decisions, net.m.role d = .decision 0
  joined : Joined net.g
  own : ∀ v, net.Own v
  recall : net.m.NoRelianceCycle net.m.decisions
  util : ∃ u, net.m.role u = .utility 0

theorem checked_of {net : Net} (hU : net.Usable) (hn : NamesOk net.g) (hB : worthB net = true) : Checked net := by
  unfold worthB at hB
  simp only [Bool.and_eq_true, decide_eq_true_eq, List.all_eq_true, List.any_eq_true] at hB
  obtain ⟨⟨⟨⟨⟨c1, c2⟩, c3⟩, c4⟩, c5⟩, u, _, c6⟩ := hB
  refine ⟨hU, hn, c1, fun u hu v hv => nearB_connected (c2 u hu v hv), fun v c hc => c3 (v, c) (Dict.mem_of_get? hc), ?_, u, c6⟩
  obtain ⟨b, b1, b2⟩ := recall_true hU hn c1 (fun _ => 0) (fun _ => 0)
  rw [c5] at b1
  cases b1
  exact b2.1 rfl

theorem Checked.owner {net : Net} (h : Checked net) (d : Node) (b : Agent) (hd : net.m.role d = .decision b) : b = 0 := by
  have := h.one d (decisions_role.2 ⟨b, hd⟩)
  rw [hd] at this
  injection this

/-- one run is enough -/
theorem worth_of {b : Py Net} {net : Net} (hb : b = .ok net) (h : Checked net) {r : Rat}
    (hok : (net.imputeOptimalPolicy (fun _ => 0) (fun _ => 0) id id 0).2 = .ok ())
    (hr : (net.imputeOptimalPolicy (fun _ => 0) (fun _ => 0) id id 0).1.EU 0 = r) : WorthExactly b r := by
  have hU := h.usable
  have hcon : ∀ d ∈ net.m.decisions, ∀ e ∈ net.m.decisions, net.g.Connected d e := fun d hd e he =>
    h.joined d (hU.roles.nodes d (Or.inl hd)) e (hU.roles.nodes e (Or.inl he))
  have hopt := (C100_impute_optimal_policy hU h.names h.one h.recall hcon (fun _ _ p _ _ => h.own p) (fun _ => 0) (fun _ => 0) (ord := id) (setOrd := id) 0
    (fun _ => .refl _) (fun _ => .refl _)).1 hok
  obtain ⟨k1, k2, _, k4⟩ := C48_impute_optimal_policy hU h.names h.one h.recall (pick := fun _ => 0) (tpick := fun _ => 0) (ord := id) (setOrd := id) (rnd := 0)
    (fun _ => .refl _) (fun _ => .refl _) (net' := (net.imputeOptimalPolicy (fun _ => 0) (fun _ => 0) id id 0).1) (Prod.ext rfl hok)
  have hmax : net.IsMaxEU 0 r := ⟨⟨_, k1, k2, hr⟩, fun n q1 q2 => hr ▸ k4 n q1 q2⟩
  refine ⟨net, hb, hU, hmax, fun pick tpick ord setOrd rnd hord hset => ?_⟩
  have hret := (C100_impute_optimal_policy hU h.names h.one h.recall hcon (fun _ _ p _ _ => h.own p) pick tpick rnd hord hset).2 hopt
  obtain ⟨l1, l2, l3, l4⟩ := C48_impute_optimal_policy hU h.names h.one h.recall hord hset
    (net' := (net.imputeOptimalPolicy pick tpick ord setOrd rnd).1) (Prod.ext rfl hret)
  generalize hn : (net.imputeOptimalPolicy pick tpick ord setOrd rnd).1 = n at l1 l2 l3 l4
  have hj : Joined n.g := by rw [l2.g]; exact h.joined
  have hun : ∀ u, n.m.role u = .utility 0 → u ∈ n.g.nodes := fun u hu =>
    l1.roles.nodes u (Or.inr (Dict.mem_keys.2 ⟨0, (role_utility l1.roles).1 hu⟩))
  obtain ⟨s, ev, e1⟩ := evaluation_returns l1 (by rw [l2.g]; exact h.names) (by rw [l2.m]; exact h.util)
    (fun u v hu hv => hj u (hun u hu) v (hv.elim (hun v) fun q => l1.roles.nodes v (Or.inl q)))
    (fun d hd => (l3 d (by rw [← l2.m]; exact hd)).1) pick hord
  refine ⟨n, s, Prod.ext hn hret, l1, l2, ?_⟩
  have hev : ev = n.EU 0 := by
    obtain ⟨us, u1, u2⟩ := C43_expected_utility l1 hord (ctx := []) (int := []) ⟨by simp, by simp⟩ (agent := 0) (r := ev) (pick := pick) (by rw [e1]) (by
      rw [PDo_nil, P_nil l1]; decide)
    rw [u2]
    unfold Net.EU
    rw [u1]
    rfl
  have : n.EU 0 = r := hmax.unique ⟨⟨n, l1, l2, rfl⟩, l4⟩ |>.symm
  rw [e1, hev, this]

/-- the constructor and `add_cpds` succeed, and the result passes the checks; to be computed -/
def cidB (edges : List (Node × Node)) (ds us : List Node) (rels : List (Node × Rel)) : Bool :=
  match Macid.init edges [(0, ds)] [(0, us)] with
  | .error _ => false
  | .ok m =>
    match (Net.mk m [] [] [] Macid.newCid).addCpds rels with
    | (_, .error _) => false
    | (net, .ok _) => rebuildCheck [(0, ds)] [(0, us)] m net && worthB net

theorem cid_checked {edges : List (Node × Node)} {ds us : List Node} {rels : List (Node × Rel)} (hh : ∀ p ∈ rels, Honest p.2)
    (hc : cidB edges ds us rels = true) (hn : NamesOk (netOf (cidOf edges ds us rels)).g) :
    cidOf edges ds us rels = .ok (netOf (cidOf edges ds us rels)) ∧ Checked (netOf (cidOf edges ds us rels)) := by
  unfold cidB at hc
  cases h1 : Macid.init edges [(0, ds)] [(0, us)] with
  | error e => rw [h1] at hc; simp at hc
  | ok m =>
    rw [h1] at hc
    simp only at hc
    generalize h2 : (Net.mk m [] [] [] Macid.newCid).addCpds rels = x at hc
    obtain ⟨net, e | _⟩ := x
    · simp at hc
    · simp only [Bool.and_eq_true] at hc
      have hb : cidOf edges ds us rels = .ok net := by
        unfold cidOf
        rw [h1]
        simp only
        rw [h2]
      rw [hb] at hn ⊢
      exact ⟨rfl, checked_of (usable_of_rebuild (.inr rfl) h1 h2 hh hc.1).1 hn hc.2⟩

theorem honest_factors (k : Rat) (sum : Bool) (l : List Node) : Honest (.func (factorsFunc k sum l)) := by
  intro pv
  unfold factorsFunc
  split <;> simp

theorem honest_equal (x y : Node) : Honest (.func (equalFunc x y)) := by
  intro pv
  unfold equalFunc
  split <;> simp

theorem honest_scaled (k : Rat) (x y : Node) : Honest (.func (scaledEqualFunc k x y)) := by
  intro pv
  unfold scaledEqualFunc
  split <;> simp

theorem honest_copy (x : Node) : Honest (.func (copyFunc x)) := by
  intro pv
  unfold copyFunc
  split <;> simp

theorem honest_noisy (x : Node) (p : Rat) (l : List Outcome) : Honest (.func (noisyFunc x p l)) := by
  intro pv
  unfold noisyFunc
  split <;> simp

theorem minimal_checked : minimalCid = .ok (netOf minimalCid) ∧ Checked (netOf minimalCid) :=
  cid_checked (by simp [minimalRels, Honest]; exact honest_copy _) (by decide +kernel) ⟨by decide +kernel, by decide +kernel⟩

theorem threeNode_checked : threeNodeCid = .ok (netOf threeNodeCid) ∧ Checked (netOf threeNodeCid) :=
  cid_checked (by simp [threeNodeRels, Honest]; exact honest_factors _ _ _) (by decide +kernel) ⟨by decide +kernel, by decide +kernel⟩

theorem fiveNode_checked : fiveNodeCid = .ok (netOf fiveNodeCid) ∧ Checked (netOf fiveNodeCid) :=
  cid_checked (by simp [fiveNodeRels, Honest]; exact ⟨honest_equal _ _, honest_equal _ _⟩) (by decide +kernel) ⟨by decide +kernel, by decide +kernel⟩

theorem scaled_checked : scaledCid = .ok (netOf scaledCid) ∧ Checked (netOf scaledCid) :=
  cid_checked (by simp [scaledRels, Honest]; exact ⟨honest_scaled _ _ _, honest_scaled _ _ _⟩) (by decide +kernel) ⟨by decide +kernel, by decide +kernel⟩

theorem twoDec_checked : twoDecCid = .ok (netOf twoDecCid) ∧ Checked (netOf twoDecCid) :=
  cid_checked (by simp [twoDecRels, Honest]; exact ⟨honest_equal _ _, honest_equal _ _⟩) (by decide +kernel) ⟨by decide +kernel, by decide +kernel⟩

theorem voi_checked : quantitativeVoiCid = .ok (netOf quantitativeVoiCid) ∧ Checked (netOf quantitativeVoiCid) :=
  cid_checked (by simp [voiRels, Honest]; exact ⟨honest_noisy _ _ _, honest_factors _ _ _⟩) (by decide +kernel) ⟨by decide +kernel, by decide +kernel⟩

/-- **C132** What an optimal policy is worth in the small example diagrams. -/
theorem C132_small_examples : WorthExactly minimalCid 1 ∧ WorthExactly threeNodeCid 1 ∧ WorthExactly fiveNodeCid (3 / 2) ∧ WorthExactly scaledCid 11 ∧
    WorthExactly twoDecCid 1 ∧ WorthExactly quantitativeVoiCid (3 / 5) :=
  ⟨worth_of minimal_checked.1 minimal_checked.2 (by decide +kernel) (by decide +kernel),
    worth_of threeNode_checked.1 threeNode_checked.2 (by decide +kernel) (by decide +kernel),
    worth_of fiveNode_checked.1 fiveNode_checked.2 (by decide +kernel) (by decide +kernel),
    worth_of scaled_checked.1 scaled_checked.2 (by decide +kernel) (by decide +kernel),
    worth_of twoDec_checked.1 twoDec_checked.2 (by decide +kernel) (by decide +kernel),
    worth_of voi_checked.1 voi_checked.2 (by decide +kernel) (by decide +kernel)⟩

/-- a run of `quantitative_voi` with one decision is enough -/
theorem voi_of {net : Net} (h : Checked net) {d u x : Node} (hd : ∀ e b, net.m.role e = .decision b ↔ e = d ∧ b = 0)
    (hu : ∀ v, net.m.role v = .utility 0 → v = u) (hdu : net.g.Edge d u) {r : Rat}
    (hr : quantitativeVoi (fun _ => 0) (fun _ => 0) id id 0 0 net d x = .ok r) (pick : Pick) (tpick : List Node → Nat) {ord setOrd : List Node → List Node}
    (rnd1 rnd2 : Nat) (hord : ∀ l, (ord l).Perm l) (hset : ∀ l, (setOrd l).Perm l) :
    quantitativeVoi pick tpick ord setOrd rnd1 rnd2 net d x = .ok r := by
  have hU := h.usable
  have hone : ∀ e b, net.m.role e = .decision b → b = 0 := fun e b q => ((hd e b).1 q).2
  have hdd := (hd d 0).2 ⟨rfl, rfl⟩
  have hs : ∀ n : Net, SameWorld (· ∈ net.m.decisions) net n → n.m.NoRelianceCycle n.m.decisions := fun n hw =>
    recall_single (d := d) (fun e he => by
      obtain ⟨b, hb⟩ := decisions_role.1 he
      rw [hw.roles] at hb
      exact ((hd e b).1 hb).1)
  have hconn : ∀ n, NotObserving net d x n → ∀ a v, n.m.role a = .utility 0 → (n.m.role v = .utility 0 ∨ v ∈ n.m.decisions) → n.g.Connected a v := by
    intro n hn a v ha hv
    have hne : u ≠ d := by
      rintro rfl
      exact hU.good.wf.acyclic _ (.single hdu)
    have he : n.g.Edge d u := (hn.edges d u).2 ⟨hdu, fun q => hne q.2⟩
    rw [hn.same.roles] at ha
    rw [hu a ha]
    rcases hv with hv | hv
    · rw [hn.same.roles] at hv
      rw [hu v hv]
      exact .refl
    · obtain ⟨b, hb⟩ := decisions_role.1 hv
      rw [hn.same.roles] at hb
      rw [((hd v b).1 hb).1]
      exact .single (Or.inr he)
  have hx : x ∈ net.g.nodes ∧ ¬ net.g.DescEq d x := by
    have h' := hr
    unfold quantitativeVoi at h'
    split_ifs at h' with c1 c2 c3
    refine ⟨by simpa using c1, fun q => ?_⟩
    rcases reflTransGen_iff_eq_or_transGen.1 q with e | q
    · exact c3 (Or.inl e)
    · exact c3 (Or.inr ((mem_descendants hU.good.wf).2 q))
  have key := fun pick tpick ord setOrd rnd1 rnd2 hord hset => C100_quantitative_voi hU h.names hone hdd hx.1 hx.2 h.util (fun n hn => hs n hn.same)
    (fun n hn => hs n hn.same) h.joined hconn (fun _ _ p _ _ => h.own p) pick tpick (ord := ord) (setOrd := setOrd) rnd1 rnd2 hord hset
  obtain ⟨r', hr'⟩ := (key pick tpick ord setOrd rnd1 rnd2 hord hset).2 ((key _ _ id id 0 0 (fun _ => .refl _) (fun _ => .refl _)).1 ⟨r, hr⟩)
  obtain ⟨a1, a2, a3, _, ⟨n1, a4⟩, a5, ⟨n2, a6⟩, a7⟩ := C58_voi_single_decision hU h.names hd (fun _ => .refl _) (fun _ => .refl _) hr
  obtain ⟨b1, b2, b3, _, _, b5, _, b7⟩ := C58_voi_single_decision hU h.names hd hord hset hr'
  rw [hr', a3, b3, (b5 n1 a4).unique (a5 n1 a4), (b7 n2 a6).unique (a7 n2 a6)]

/-- **C132** In the last of them `quantitative_voi` says that the noisy observation is worth 3/5, and that the thing itself would be worth another 2/5,
whatever the orders and the policies drawn. -/
theorem C132_value_of_information : ∃ net, quantitativeVoiCid = .ok net ∧
    ∀ (pick : Pick) (tpick : List Node → Nat) (ord setOrd : List Node → List Node) (rnd1 rnd2 : Nat), (∀ l, (ord l).Perm l) → (∀ l, (setOrd l).Perm l) →
      quantitativeVoi pick tpick ord setOrd rnd1 rnd2 net "D" "X" = .ok (3 / 5) ∧
      quantitativeVoi pick tpick ord setOrd rnd1 rnd2 net "D" "S" = .ok (2 / 5) := by
  have hm1 : (netOf quantitativeVoiCid).m.decisionAgent = [("D", 0)] := by decide +kernel
  have hm2 : (netOf quantitativeVoiCid).m.utilityAgent = [("U", 0)] := by decide +kernel
  have hd : ∀ e b, (netOf quantitativeVoiCid).m.role e = .decision b ↔ e = "D" ∧ b = 0 := by
    intro e b
    rw [role_decision, hm1]
    by_cases h : e = "D"
    · subst h; simp [Dict.get?, eq_comm]
    · simp [Dict.get?, h, Ne.symm h]
  have hu : ∀ v, (netOf quantitativeVoiCid).m.role v = .utility 0 → v = "U" := by
    intro v hv
    have := Dict.mem_of_get? ((role_utility voi_checked.2.usable.roles).1 hv)
    rw [hm2] at this
    simp at this
    exact this
  have he : (netOf quantitativeVoiCid).g.Edge "D" "U" := by
    show ("D", "U") ∈ (netOf quantitativeVoiCid).g.edges
    decide +kernel
  refine ⟨_, voi_checked.1, fun pick tpick ord setOrd rnd1 rnd2 hord hset => ⟨?_, ?_⟩⟩
  · exact voi_of voi_checked.2 hd hu he (by decide +kernel) pick tpick rnd1 rnd2 hord hset
  · exact voi_of voi_checked.2 hd hu he (by decide +kernel) pick tpick rnd1 rnd2 hord hset

/-- **C132** What is observed, and how noisy it is: `D` sees both states in the diagrams with five nodes, and in the last diagram a copy of `S` that is correct
with probability 4/5. -/
theorem C132_observations : (∃ net, fiveNodeCid = .ok net ∧ ∀ v, net.g.Edge v "D" ↔ v = "S1" ∨ v = "S2") ∧
    (∃ net, scaledCid = .ok net ∧ ∀ v, net.g.Edge v "D" ↔ v = "S1" ∨ v = "S2") ∧
    ∃ net, quantitativeVoiCid = .ok net ∧ (∀ v, net.g.Edge v "D" ↔ v = "X") ∧
      ∀ s ∈ [(-1 : Outcome), 1], ∀ x ∈ [(-1 : Outcome), 1], net.P (Ctx [("S", s), ("X", x)]) = 1 / 2 * if x = s then 4 / 5 else 1 / 5 := by
  refine ⟨⟨_, fiveNode_checked.1, fun v => ?_⟩, ⟨_, scaled_checked.1, fun v => ?_⟩, _, voi_checked.1, fun v => ?_, by decide +kernel⟩
  · rw [← Graph.mem_parents, show (netOf fiveNodeCid).g.parents "D" = ["S1", "S2"] by decide +kernel]; simp
  · rw [← Graph.mem_parents, show (netOf scaledCid).g.parents "D" = ["S1", "S2"] by decide +kernel]; simp
  · rw [← Graph.mem_parents, show (netOf quantitativeVoiCid).g.parents "D" = ["X"] by decide +kernel]; simp

end Verif

import Verif.Model.OneShot
import Verif.Props.Query
import Verif.Props.Subgame
import Verif.Props.Remove
import Verif.Lemmas.Keyed

/-!
# C111: arguments declared as `Iterable` that can be read only once
-/

namespace Verif
open Net Graph Relation

theorem anyM_singleton {α : Type} (f : α → Py Bool) (x : α) : anyM f [x] = f x := by
  simp only [anyM]
  split <;> simp_all

theorem pairsIter_list (pick : Pick) (m : Macid) (mg : Graph) (ns : List Node) : ∀ ds : List Node,
    Macid.pairsIter pick m mg ds (.list ns) = anyM (fun d => anyM (fun n => Macid.rReachPair pick m mg d n) ns) ds := by
  intro ds
  induction ds with
  | nil => rfl
  | cons d ds ih =>
    simp only [Macid.pairsIter, Iter.any, anyM]
    generalize anyM (fun n => Macid.rReachPair pick m mg d n) ns = r
    match r with
    | .error e => rfl
    | .ok true => rfl
    | .ok false => exact ih

theorem isRReachableDecs_list (pick : Pick) (m : Macid) (ds : List Node) (n : Node) :
    Macid.isRReachableDecs pick m (.list ds) n = (Macid.isRReachable pick m ds [n], .list ds) := by
  unfold Macid.isRReachableDecs Macid.isRReachable
  generalize Macid.mechGraph m.g = r
  match r with
  | .error e => rfl
  | .ok mg => simp only [Iter.any, anyM_singleton]

theorem relevantIter_list (pick : Pick) (m : Macid) (active : List Node) : ∀ vs : List Node,
    relevantIter pick m vs (.list active) = (filterM' (fun n => Macid.isRReachable pick m active [n]) vs, .list active) := by
  intro vs
  induction vs with
  | nil => rfl
  | cons v vs ih =>
    simp only [relevantIter, isRReachableDecs_list, filterM']
    generalize Macid.isRReachable pick m active [v] = r
    match r with
    | .error e => rfl
    | .ok b =>
      simp only [ih]
      generalize filterM' (fun n => Macid.isRReachable pick m active [n]) vs = r'
      match r' with
      | .error e => rfl
      | .ok ns => rfl

theorem policiesIter_list (check : Node → Node → Py Unit) (q : List Node) : ∀ ds : List Node,
    policiesIter check ds (.list q) = (forPy (fun d => forPy (check d) q) ds).map (fun _ => .list q) := by
  intro ds
  induction ds with
  | nil => rfl
  | cons d ds ih =>
    simp only [policiesIter, Iter.elems, Iter.spent, forPy]
    generalize forPy (check d) q = r
    match r with
    | .error e => rfl
    | .ok _ => exact ih

/-- **C111** Arguments that can be read again: the functions are the ones of the other properties. -/
theorem C111_collections (pick : Pick) (tpick : List Node → Nat) (ord setOrd : List Node → List Node) (net : Net) (m : Macid) :
    (∀ es, Graph.ofIter (.list es) = Graph.ofEdges es) ∧
    (∀ es ad au, Macid.initIter (.list es) ad au = Macid.init es ad au) ∧
    (∀ ds ns, Macid.isRReachableNodes pick m ds (.list ns) = Macid.isRReachable pick m ds ns) ∧
    (∀ ds n, (Macid.isRReachableDecs pick m (.list ds) n).1 = Macid.isRReachable pick m ds [n]) ∧
    (∀ ds, Macid.relevanceGraphIter pick m (.list ds) = Macid.relevanceGraph pick m ds) ∧
    (∀ ds, net.createSubgameIter pick setOrd (.list ds) = net.createSubgame pick setOrd ds) ∧
    (∀ q ctx int, net.queryIter pick ord (.list q) ctx int = net.query pick ord q ctx int) ∧
    (∀ ds as, net.macidToEfgIter pick tpick ord ds (.list as) = net.macidToEfg pick tpick ord ds as) := by
  refine ⟨fun _ => rfl, fun _ _ _ => rfl, ?_, ?_, fun _ => rfl, ?_, ?_, fun _ _ => rfl⟩
  · intro ds ns
    unfold Macid.isRReachableNodes Macid.isRReachable
    generalize Macid.mechGraph m.g = r
    match r with
    | .error e => rfl
    | .ok mg => exact pairsIter_list pick m mg ns ds
  · intro ds n
    rw [isRReachableDecs_list]
  · intro ds
    unfold Net.createSubgameIter Net.createSubgame relevantNodes
    rw [relevantIter_list]
    generalize filterM' (fun n => Macid.isRReachable pick net.m ds [n]) net.m.g.nodes = r
    match r with
    | .error e => rfl
    | .ok relevant =>
      simp only [Iter.elems, Iter.spent, subgameFrom, subgameSkeleton]
      generalize groupByAgent net.m.decisionAgent [] ds = r1
      match r1 with
      | .error e => rfl
      | .ok ad =>
        generalize groupByAgent net.m.utilityAgent [] (setOrd (relevant.filter (fun n => decide (n ∈ net.m.utilities)))) = r2
        match r2 with
        | .error e => rfl
        | .ok au => rfl
  · intro q ctx int
    unfold Net.queryIter Net.query policiesOk
    generalize net.checkContext ctx = r0
    match r0 with
    | .error e => rfl
    | .ok _ =>
      generalize Macid.mechGraph net.g = r1
      match r1 with
      | .error e => rfl
      | .ok mg =>
        simp only
        generalize net.cutMech mg (int.map (·.1)) = r2
        match r2 with
        | .error e => rfl
        | .ok mg' =>
          simp only [policiesIter_list]
          generalize forPy (fun d => forPy (fun qn => policyCheck pick net mg' (ctx.map (·.1) ++ int.map (·.1)) d qn) q) net.m.decisions = r3
          match r3 with
          | .error e => rfl
          | .ok _ => rfl

/-- **C111** (what goes wrong) A constructor that is given an iterator of edges returns a network without nodes, whatever the edges are,
also if they form a cycle; roles are recorded nevertheless. -/
theorem C111_constructor (es : List (Node × Node)) (ad au : Dict Agent (List Node)) :
    Graph.ofIter (.once es) = .ok Graph.empty ∧
    ∃ m, Macid.initIter (.once es) ad au = .ok m ∧ m.g.nodes = [] ∧ m.agentDecisions = ad ∧ m.agentUtilities = au :=
  ⟨rfl, _, rfl, rfl, rfl, rfl⟩

theorem policiesIter_spent (check : Node → Node → Py Unit) : ∀ ds : List Node, policiesIter check ds (.once []) = .ok (.once []) := by
  intro ds
  induction ds with
  | nil => rfl
  | cons d ds ih => simpa [policiesIter, Iter.elems, Iter.spent, forPy] using ih

/-- **C111** (what goes wrong) A query that is answered for a list raises NetworkXPointlessConcept for an iterator with the same elements,
if there is a decision.  Without intervention the network has lost all its nodes afterwards. -/
theorem C111_query {net : Net} (hU : net.Usable) {pick : Pick} {ord : List Node → List Node} {q : List Node}
    {ctx int : List (Node × Outcome)} (hi : net.IntOk int) (hd : net.m.decisions ≠ []) {f : Factor}
    (h : (net.query pick ord q ctx int).2 = .ok f) :
    (net.queryIter pick ord (.once q) ctx int).2 = .error .nx ∧
    (int = [] → (net.queryIter pick ord (.once q) ctx int).1.g.nodes = []) ∧
    (int ≠ [] → (net.queryIter pick ord (.once q) ctx int).1 = net) := by
  unfold Net.query policiesOk at h
  unfold Net.queryIter
  cases h0 : net.checkContext ctx with
  | error e => simp [h0] at h
  | ok _ =>
    simp only [h0] at h ⊢
    cases h1 : Macid.mechGraph net.g with
    | error e => simp [h1] at h
    | ok mg =>
      simp only [h1] at h ⊢
      cases h2 : net.cutMech mg (int.map (·.1)) with
      | error e => simp [h2] at h
      | ok mg' =>
        simp only [h2] at h ⊢
        have hp : policiesIter (policyCheck pick net mg' (ctx.map (·.1) ++ int.map (·.1))) net.m.decisions (.once q) = .ok (.once []) := by
          cases hds : net.m.decisions with
          | nil => exact absurd hds hd
          | cons d ds =>
            rw [hds] at h
            simp only [forPy] at h
            cases h3 : forPy (fun qn => policyCheck pick net mg' (ctx.map (·.1) ++ int.map (·.1)) d qn) q with
            | error e => simp [h3] at h
            | ok _ =>
              simp only [policiesIter, Iter.elems, Iter.spent]
              have h3' : forPy (policyCheck pick net mg' (ctx.map (·.1) ++ int.map (·.1)) d) q = .ok () := h3
              rw [h3']
              exact policiesIter_spent _ ds
        simp only [hp, Iter.elems]
        have hcb : net.checkContextCbn ctx = .ok () := by
          revert h
          split
          · intro h; simp at h
          · unfold queryCbn
            cases net.checkContextCbn ctx with
            | error e => intro h; simp at h
            | ok _ => intro _; rfl
        have hn : ∀ n : Net, (n.prune []).g.nodes = [] := by
          intro n
          rw [List.eq_nil_iff_forall_not_mem]
          intro v hv
          simpa using (mem_prune.1 hv).2
        have hq : ∀ n : Net, n.queryOn ord [] ctx = (n.prune [], .error .nx) := by
          intro n
          simp only [queryOn, List.all_nil, Bool.true_eq_false, if_false, List.flatMap_nil]
          unfold isConnected
          rw [hn n]
        unfold queryCbn
        rw [hcb]
        simp only
        cases hint : int with
        | nil =>
          simp only [queryCore, hq]
          exact ⟨trivial, fun _ => hn net, fun e => absurd rfl e⟩
        | cons p ps =>
          rw [hint] at hi
          obtain ⟨c, c', e1, e2, _⟩ := hU.act hi
          simp only [queryCore, e1, e2, hq]
          exact ⟨trivial, fun e => (by simp at e), fun _ => trivial⟩

/-- **C111** (what goes wrong) If the nodes are given by an iterator, `is_r_reachable` looks at the first decision only: True is still
right, False is not. -/
theorem C111_nodes (pick : Pick) (m : Macid) (d : Node) (ds ns : List Node) :
    Macid.isRReachableNodes pick m (d :: ds) (.once ns) = Macid.isRReachable pick m [d] ns := by
  unfold Macid.isRReachableNodes Macid.isRReachable
  generalize Macid.mechGraph m.g = r
  match r with
  | .error e => rfl
  | .ok mg =>
    have h0 : ∀ l, Macid.pairsIter pick m mg l (.once []) = .ok false := by
      intro l
      induction l with
      | nil => rfl
      | cons x l ih => simpa [Macid.pairsIter, Iter.any, Iter.anyRest] using ih
    have h1 : ∀ f : Node → Py Bool, (Iter.anyRest f ns).1 = anyM f ns ∧ (anyM f ns = .ok false → (Iter.anyRest f ns).2 = []) := by
      intro f
      induction ns with
      | nil => exact ⟨rfl, fun _ => rfl⟩
      | cons x xs ih =>
        simp only [Iter.anyRest, anyM]
        generalize f x = r
        match r with
        | .error e => exact ⟨rfl, fun h => by cases h⟩
        | .ok true => exact ⟨rfl, fun h => by cases h⟩
        | .ok false => exact ih
    obtain ⟨h2, h3⟩ := h1 (fun n => Macid.rReachPair pick m mg d n)
    simp only [Macid.pairsIter, Iter.any, anyM_singleton, h2]
    generalize hr : anyM (fun n => Macid.rReachPair pick m mg d n) ns = r
    match r with
    | .error e => rfl
    | .ok true => rfl
    | .ok false =>
      simp only [h3 hr]
      exact h0 ds

/-- **C111** (what goes wrong) The relevance graph of an iterator of decisions has no edges. -/
theorem C111_relevance (pick : Pick) (m : Macid) (ds : List Node) :
    ∃ rg, Macid.relevanceGraphIter pick m (.once ds) = .ok rg ∧ rg.edges = [] ∧ ∀ d, d ∈ rg.nodes ↔ d ∈ ds := by
  refine ⟨Graph.empty.addNodes ds, rfl, ?_, ?_⟩
  · have : ∀ (l : List Node) (g : Graph), (g.addNodes l).edges = g.edges := by
      intro l
      induction l with
      | nil => intro g; rfl
      | cons x l ih =>
        intro g
        show ((g.addNode x).addNodes l).edges = _
        rw [ih]
        unfold Graph.addNode
        split <;> rfl
    exact this ds _
  · have : ∀ (l : List Node) (g : Graph) (d : Node), d ∈ (g.addNodes l).nodes ↔ d ∈ g.nodes ∨ d ∈ l := by
      intro l
      induction l with
      | nil => intro g d; simp [Graph.addNodes]
      | cons x l ih =>
        intro g d
        show d ∈ ((g.addNode x).addNodes l).nodes ↔ _
        rw [ih]
        unfold Graph.addNode
        split
        · rename_i hx
          constructor
          · rintro (h | h)
            · exact Or.inl h
            · exact Or.inr (List.mem_cons_of_mem _ h)
          · rintro (h | h)
            · exact Or.inl h
            · rcases List.mem_cons.1 h with rfl | h
              · exact Or.inl hx
              · exact Or.inr h
        · simp only [List.mem_append, List.mem_singleton, List.mem_cons]
          tauto
    intro d
    rw [this]
    simp [Graph.empty]

theorem anyRest_shrinks {α : Type} (f : α → Py Bool) (l : List α) : (Iter.anyRest f l).2.length ≤ l.length - 1 := by
  induction l with
  | nil => simp [Iter.anyRest]
  | cons x xs ih =>
    simp only [Iter.anyRest]
    split <;> simp <;> omega

theorem relevantIter_once (pick : Pick) (m : Macid) : ∀ (vs ds : List Node) {r : List Node} {left : Iter Node},
    relevantIter pick m vs (.once ds) = (.ok r, left) → ∃ l, left = .once l ∧ l.length ≤ ds.length - vs.length := by
  intro vs
  induction vs with
  | nil =>
    intro ds r left h
    simp only [relevantIter, Prod.mk.injEq] at h
    exact ⟨ds, h.2.symm, by simp⟩
  | cons v vs ih =>
    intro ds r left h
    unfold relevantIter at h
    split at h
    · simp at h
    rename_i b rest hb
    have hrest : ∃ l, rest = .once l ∧ l.length ≤ ds.length - 1 := by
      unfold Macid.isRReachableDecs at hb
      split at hb
      · simp at hb
      · simp only [Iter.any, Prod.mk.injEq] at hb
        exact ⟨_, hb.2.symm, anyRest_shrinks _ _⟩
    obtain ⟨l, rfl, hl⟩ := hrest
    split at h
    · simp at h
    rename_i ns rest' hr
    simp only [Prod.mk.injEq] at h
    obtain ⟨l', hl', hl''⟩ := ih l hr
    refine ⟨l', h.2.symm.trans hl', ?_⟩
    simp only [List.length_cons]
    omega

/-- **C111** (what goes wrong) If the active decisions are given by an iterator, the subgame has no decisions. -/
theorem C111_subgame {pick : Pick} {setOrd : List Node → List Node} {net sg : Net} {ds : List Node}
    (h : net.createSubgameIter pick setOrd (.once ds) = .ok sg) : sg.m.decisions = [] := by
  unfold Net.createSubgameIter at h
  split at h
  · cases h
  rename_i relevant left hr
  obtain ⟨l, rfl, _⟩ := relevantIter_once pick net.m _ _ hr
  unfold subgameFrom at h
  simp only [Iter.spent, Iter.elems, groupByAgent] at h
  split at h
  · cases h
  split at h
  · cases h
  rename_i skel hs
  split at h
  · cases h
  split at h
  · cases h
  split at h
  · cases h
  rename_i sg1 h1
  rw [fillLoop_m h, fillLoop_m h1]
  show skel.decisions = []
  unfold Macid.init at hs
  split at hs
  · cases hs
  · cases hs
    rfl

theorem growAt_payoffs {pick : Pick} {ord : List Node → List Node} {decs : List Node} {node : Node} {net net' : Net} {t t' : Efg} {idx : List Nat}
    (h : growAt pick ord decs node net t idx = (net', .ok t')) : t'.payoffs = t.payoffs := by
  unfold growAt at h
  split at h
  · simp at h
  split at h
  · simp at h
  split at h
  · split at h
    · simp at h
    split at h
    · simp at h
    split at h
    · simp at h
    simp only [Prod.mk.injEq] at h
    obtain ⟨_, h⟩ := h
    unfold Efg.decideAt at h
    split at h
    · split at h
      · cases h
      rename_i t1 h1
      obtain ⟨_, e⟩ := appendMove_ok h1
      split at h
      · cases h
      split at h
      · cases h
      · cases h
        rw [(addStates_spec _ _ _ _ _).2.2.2.2.1, e]
    · simp only at h
      split at h
      · cases h
      rename_i t1 h1
      obtain ⟨_, e⟩ := appendMove_ok h1
      cases h
      rw [(addStates_spec _ _ _ _ _).2.2.2.2.1, e]
  · split at h
    · simp at h
    split at h
    · simp at h
    split at h
    · simp at h
    split at h
    · simp at h
    rename_i actions _ _ t1 h1
    simp only [Prod.mk.injEq, Except.ok.injEq] at h
    obtain ⟨_, rfl⟩ := h
    obtain ⟨_, e⟩ := appendMove_ok h1
    rw [(addStates_spec _ _ _ _ _).2.2.2.2.1, e]

theorem growNodes_payoffs {pick : Pick} {ord : List Node → List Node} {decs : List Node} : ∀ (todo : List (Node × Nat)) {net net' : Net} {t t' : Efg}
    {done : List (List Nat)}, t.payoffs = [] → growNodes pick ord decs net t done todo = (net', .ok t') → t'.payoffs = []
  | [], net, net', t, t', done, ht, h => by
    simp only [growNodes, Prod.mk.injEq, Except.ok.injEq] at h
    exact h.2 ▸ ht
  | (v, n) :: todo, net, net', t, t', done, ht, h => by
    unfold growNodes at h
    split at h
    · simp at h
    rename_i n1 t1 h1
    exact growNodes_payoffs todo (loopNet_inv (P := fun t => t.payoffs = []) (fun _ _ _ _ _ hP hh => (growAt_payoffs hh).trans hP) _ ht h1) h

/-- **C111** (what goes wrong) If the agents are given by an iterator, no leaf of the game tree has payoffs. -/
theorem C111_payoffs {pick : Pick} {tpick : List Node → Nat} {ord : List Node → List Node} {net net' : Net} {ds : List Node}
    {as : List Agent} {t : Efg} (h : net.macidToEfgIter pick tpick ord ds (.once as) = (net', .ok t)) :
    ∀ idx us, t.payoffs.get? idx = some us → us = [] := by
  unfold macidToEfgIter at h
  split at h
  · simp at h
  split at h
  · simp at h
  split at h
  · simp at h
  simp only at h
  split at h
  · simp at h
  rename_i n1 t1 h1
  have h0 : t1.payoffs = [] := growNodes_payoffs _ rfl h1
  refine loopNet_inv (P := fun t => ∀ idx us, t.payoffs.get? idx = some us → us = []) ?_ _ (by rw [h0]; intro idx us hu; cases hu) h
  intro n t x n' t' hP hh
  unfold addPayoff at hh
  split at hh
  · simp at hh
  simp only [Iter.spent, Iter.elems, leafPayoffs, Prod.mk.injEq, Except.ok.injEq] at hh
  obtain ⟨_, rfl⟩ := hh
  intro idx us hu
  rw [show ({ t with payoffs := t.payoffs.set x [] } : Efg).payoffs = t.payoffs.set x [] from rfl, Dict.get?_set] at hu
  split at hu
  · cases hu
    rfl
  · exact hP idx us hu

/-- **C111** The hypotheses are met, and the results differ from those for lists. -/
theorem C111_example :
    (Ex.net.Usable ∧ Ex.net.m.decisions ≠ [] ∧
      (Ex.net.query (fun _ _ => 0) id ["A"] [] []).2 = .ok ⟨["A"], [[0, 1]], [some (1 / 4), some (3 / 4)]⟩ ∧
      (Ex.net.queryIter (fun _ _ => 0) id (.once ["A"]) [] []).1.g.nodes = []) ∧
    (Macid.isRReachable (fun _ _ => 0) ExS.m ["D2", "D1"] ["D2"] = .ok true ∧
      Macid.isRReachableNodes (fun _ _ => 0) ExS.m ["D2", "D1"] (.once ["D2"]) = .ok false) ∧
    ((Macid.relevanceGraph (fun _ _ => 0) ExS.m ["D2", "D1"]).toOption.map (·.edges)) = some [("D1", "D2")] ∧
    (((createSubgame (fun _ _ => 0) id (ExS.net [0, 1]) ["D2"]).toOption.map (fun n => (n.m.decisions, n.g.nodes))) =
        some (["D2"], ["X", "D2", "D1", "U2"]) ∧
      ((createSubgameIter (fun _ _ => 0) id (ExS.net [0, 1]) (.once ["D2"])).toOption.map (fun n => (n.m.decisions, n.g.nodes))) =
        some ([], [])) ∧
    ((Ex.net.macidToEfg (fun _ _ => 0) (fun _ => 0) id ["D"] [0]).2.toOption.map (·.payoffs)).isSome = true ∧
    ((Ex.net.macidToEfgIter (fun _ _ => 0) (fun _ => 0) id ["D"] (.once [0])).2.toOption.map (·.payoffs.map (·.2))) =
      some [[], [], [], []] := by
  refine ⟨⟨Ex.net_usable, by decide +kernel, by decide +kernel, by decide +kernel⟩, ⟨by decide +kernel, by decide +kernel⟩,
    by decide +kernel, ⟨by decide +kernel, by decide +kernel⟩, by decide +kernel, by decide +kernel⟩

end Verif

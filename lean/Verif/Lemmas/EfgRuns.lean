import Verif.Lemmas.EfgTree
import Verif.Lemmas.MaxEU

/-!
# When the game tree is built
-/

namespace Verif
open Relation Graph Macid Net BN

/-- the branch taken at a node on the way -/
theorem At.split {dom : Node → List Outcome} {a : Assign} : ∀ {vs : List Node} {i1 : List Nat} {j : Nat} {i2 : List Nat},
    At dom vs (i1 ++ j :: i2) (vs.map a) → ∃ vs1 w vs2, vs = vs1 ++ w :: vs2 ∧ At dom vs1 i1 (vs1.map a) ∧ j < (dom w).length
  | [], i1, j, i2, h => by
    have := h.lengths.1
    simp at this
  | v :: vs, [], j, i2, h => by
    cases h with
    | branch h1 _ => exact ⟨[], v, vs, rfl, .root, (List.getElem?_eq_some_iff.1 h1).1⟩
  | v :: vs, i :: i1, j, i2, h => by
    cases h with
    | branch h1 h2 =>
      obtain ⟨vs1, w, vs2, e, h3, h4⟩ := At.split h2
      exact ⟨v :: vs1, w, vs2, by rw [e]; rfl, .branch h1 h3, h4⟩

namespace Net

theorem mec_inj {a b : String} (h : a ++ "mec" = b ++ "mec") : a = b := by
  have := congrArg String.toList h
  simp only [String.toList_append] at this
  exact String.toList_inj.1 (List.append_cancel_right this)

/-- given a set that contains the parents of its members, no decision in it matters for anything outside it -/
theorem not_reached_ancestral {net : Net} (hG : Good net) (hnames : NamesOk net.g) {mg : Graph} (hM : net.IsMech [] mg) {Z : List Node}
    (hZ : ∀ z ∈ Z, z ∈ net.g.nodes) (hc : ∀ z ∈ Z, ∀ p, net.g.Edge p z → p ∈ Z) {d u : Node} (hd : d ∈ Z) (hu : u ∈ net.g.nodes) (huZ : u ∉ Z) :
    ¬ Reached mg Z [d ++ "mec"] u := by
  rintro ⟨_, dir, hb⟩
  have hinv : ∀ w dir, Ball mg Z (fun w d' => w ∈ [d ++ "mec"] ∧ d' = .up) w dir → w ∈ Z ∨ ∃ z ∈ Z, w = z ++ "mec" := by
    intro w dir hb
    have par : ∀ p w, (w ∈ Z ∨ ∃ z ∈ Z, w = z ++ "mec") → mg.Edge p w → p ∈ Z ∨ ∃ z ∈ Z, p = z ++ "mec" := by
      intro p w hw he
      rcases (hM.2.2 p w).1 he with ⟨h1, _⟩ | ⟨h1, h2⟩
      · rcases hw with hw | ⟨z, hz, rfl⟩
        · exact Or.inl (hc w hw p h1)
        · exact absurd rfl (hnames.1 _ (hG.wf.edgeNodes _ _ h1).2 z (hZ z hz))
      · rcases hw with hw | ⟨z, hz, rfl⟩
        · exact Or.inr ⟨w, hw, h2⟩
        · exact absurd rfl (hnames.1 _ h1 z (hZ z hz))
    have chi : ∀ c w, (w ∈ Z ∨ ∃ z ∈ Z, w = z ++ "mec") → w ∉ Z → mg.Edge w c → c ∈ Z ∨ ∃ z ∈ Z, c = z ++ "mec" := by
      intro c w hw hwZ he
      rcases hw with hw | ⟨z, hz, rfl⟩
      · exact absurd hw hwZ
      · rcases (hM.2.2 _ _).1 he with ⟨h1, _⟩ | ⟨h1, h2⟩
        · exact absurd rfl (hnames.1 _ (hG.wf.edgeNodes _ _ h1).1 z (hZ z hz))
        · exact Or.inl (mec_inj h2 ▸ hz)
    induction hb with
    | init h => exact Or.inr ⟨d, hd, by simpa using h.1⟩
    | upPar _ h1 h2 ih => exact par _ _ ih h2
    | upCh _ h1 h2 ih => exact chi _ _ ih h1 h2
    | downCh _ h1 h2 ih => exact chi _ _ ih h1 h2
    | downPar _ h1 h2 ih => exact par _ _ ih h2
  rcases hinv u dir hb with h | ⟨z, hz, h⟩
  · exact huZ h
  · exact hnames.1 u hu z (hZ z hz) h

/-- given its parents, no other decision rule matters for a node -/
theorem not_reached_parents {net : Net} (hG : Good net) (hnames : NamesOk net.g) {mg : Graph} (hM : net.IsMech [] mg) {d v : Node}
    (hd : d ∈ net.g.nodes) (hv : v ∈ net.g.nodes) (hdv : d ≠ v) {Z : List Node} (hZ : ∀ z, z ∈ Z ↔ net.g.Edge z v) :
    ¬ Reached mg Z [d ++ "mec"] v := by
  rintro ⟨_, dir, hb⟩
  have hroot : ∀ p w, w ∈ net.g.nodes → ¬ mg.Edge p (w ++ "mec") := by
    intro p w hw he
    rcases (hM.2.2 _ _).1 he with ⟨h1, _⟩ | ⟨h1, _⟩
    · exact hnames.1 _ (hG.wf.edgeNodes _ _ h1).2 w hw rfl
    · exact hnames.1 _ h1 w hw rfl
  have hchild : ∀ c w, w ∈ net.g.nodes → mg.Edge (w ++ "mec") c → c = w := by
    intro c w hw he
    rcases (hM.2.2 _ _).1 he with ⟨h1, _⟩ | ⟨_, h2⟩
    · exact absurd rfl (hnames.1 _ (hG.wf.edgeNodes _ _ h1).1 w hw)
    · exact (mec_inj h2).symm
  have hinv : ∀ w dir, Ball mg Z (fun w d' => w ∈ [d ++ "mec"] ∧ d' = .up) w dir →
      w ≠ v ∧ w ≠ v ++ "mec" ∧ (dir = .up → ¬ mg.DescEq v w) := by
    intro w dir hb
    have par : ∀ p w, w ≠ v → ¬ mg.DescEq v w → mg.Edge p w → p ≠ v ∧ p ≠ v ++ "mec" ∧ (Dir.up = .up → ¬ mg.DescEq v p) := by
      intro p w hwv hw he
      refine ⟨?_, ?_, fun _ h => hw (h.tail he)⟩
      · rintro rfl
        exact hw (ReflTransGen.single he)
      · rintro rfl
        exact hwv (hchild _ _ hv he)
    have chi : ∀ c w, w ≠ v ++ "mec" → w ∉ Z → mg.Edge w c → c ≠ v ∧ c ≠ v ++ "mec" ∧ (Dir.down = .up → ¬ mg.DescEq v c) := by
      intro c w hwv hw he
      refine ⟨?_, ?_, by simp⟩
      · rintro rfl
        rcases (hM.2.2 _ _).1 he with ⟨h1, _⟩ | ⟨_, h2⟩
        · exact hw ((hZ w).2 h1)
        · exact hwv h2
      · rintro rfl
        exact hroot _ _ hv he
    induction hb with
    | init h =>
      obtain ⟨h1, h2⟩ := h
      simp only [List.mem_singleton] at h1
      subst h1
      refine ⟨fun e => hnames.1 v hv d hd e.symm, fun e => hdv (mec_inj e), fun _ h => ?_⟩
      rcases ReflTransGen.cases_tail h with e | ⟨w, _, hw⟩
      · exact hnames.1 v hv d hd e.symm
      · exact hroot _ _ hd hw
    | upPar _ h1 h2 ih => exact par _ _ ih.1 (ih.2.2 rfl) h2
    | upCh _ h1 h2 ih => exact chi _ _ ih.2.1 h1 h2
    | downCh _ h1 h2 ih => exact chi _ _ ih.2.1 h1 h2
    | @downPar w p _ h1 h2 ih =>
      refine ⟨?_, ?_, fun _ h => ?_⟩
      · rintro rfl
        obtain ⟨z, hz, hr⟩ := h1
        have hzp := (hM.2.2 z p).2 (Or.inl ⟨(hZ z).1 hz, by simp⟩)
        exact hM.1.acyclic _ (TransGen.head' h2 (hr.tail hzp))
      · rintro rfl
        exact ih.1 (hchild _ _ hv h2)
      · obtain ⟨z, hz, hr⟩ := h1
        have hzp := (hM.2.2 z v).2 (Or.inl ⟨(hZ z).1 hz, by simp⟩)
        exact hM.1.acyclic _ (TransGen.head' h2 ((hr.tail hzp).trans h))
  exact (hinv v dir hb).1 rfl

theorem given_keys (vs : List Node) (a : Assign) : (Given vs a).map (·.1) = vs := by
  simp [Given, Function.comp_def]

/-- a legal query of a possible context in a connected network is answered -/
theorem query_answer {net : Net} (hG : Good net) (hN : net.Normalised) (hj : Joined net.g) {pick : Pick} {ord : List Node → List Node}
    (hord : ∀ l, (ord l).Perm l) {q : List Node} {ctx : List (Node × Outcome)} (hq : q ≠ []) (hqn : ∀ v ∈ q, v ∈ net.g.nodes)
    (hqc : ∀ v ∈ q, v ∉ ctx.map (·.1))
    (hctx : ∀ p ∈ ctx, p.1 ∈ net.g.nodes ∧ p.2 ∈ net.dom p.1 ∧ ∀ c, net.cpds.get? p.1 = some c → c.kind ≠ .tabular)
    (hp : net.policiesOk pick q ctx [] = .ok ()) : ∃ f, net.query pick ord q ctx [] = (net, .ok f) := by
  obtain ⟨x, hx⟩ := List.exists_mem_of_ne_nil _ hq
  have h1 : (net.query pick ord q ctx []).1 = net :=
    C37_query_connected hG pick ord q ctx (fun v hv => ⟨x, hx, hj x (hqn x hx) v hv⟩)
  obtain ⟨_, _, h3⟩ := queryOn_spec hG hN hord q (ctx := ctx) (fun p hp => (hctx p hp).1)
  obtain ⟨_, _, h4⟩ := h3 hqn hq
  obtain ⟨_, h5⟩ := h4 (fun u hu v hv => hj u (hqn u hu) v (hqn v hv))
  obtain ⟨f, hf1, hf2⟩ := h5 hqc
  refine ⟨f, Prod.ext h1 ?_⟩
  rw [query_pass hG hctx hp]
  exact hf1

theorem conditional_some {net : Net} {q : List Node} {ctx : List (Node × Outcome)} {f : Factor}
    (hf : IsConditional f q net.dom net.P (Ctx ctx)) (hpos : net.P (Ctx ctx) ≠ 0) : f.values.any Option.isNone = false := by
  rw [List.any_eq_false]
  intro y hy
  rw [hf.2.2] at hy
  obtain ⟨xs, _, rfl⟩ := List.mem_map.1 hy
  simp [hpos]

theorem treeable_nodes {net : Net} (hG : Good net) (hr : net.m.Consistent) {decs : List Node} {agents : List Agent} (hT : net.Treeable decs agents)
    {v : Node} (hv : net.InTree decs v) : v ∈ net.g.nodes := by
  rcases hv with hv | ⟨d, _, he⟩
  · obtain ⟨ag, _, h⟩ := hT.owners v hv
    exact hr.nodes v (Or.inl (decisions_role.2 ⟨ag, h⟩))
  · exact (hG.wf.edgeNodes _ _ he).1

/-- the query for a chance node -/
theorem chance_query {net : Net} (hG : Good net) (hN : net.Normalised) (hr : net.m.Consistent) {decs : List Node} {agents : List Agent}
    (hT : net.Treeable decs agents) {pick : Pick} {ord : List Node → List Node} (hord : ∀ l, (ord l).Perm l) {v : Node} (hv : net.InTree decs v)
    (hvd : v ∉ decs) {a : Assign} (ha : ∀ p, net.g.Edge p v → a p ∈ net.dom p) :
    ∃ f, net.query pick ord [v] (Given (net.g.parents v) a) [] = (net, .ok f) ∧ f.values.any Option.isNone = false := by
  have hvn := treeable_nodes hG hr hT hv
  have hdn : ∀ d ∈ net.m.decisions, d ∈ net.g.nodes := fun d hd => hr.nodes d (Or.inl hd)
  have hctx : ∀ p ∈ Given (net.g.parents v) a, p.1 ∈ net.g.nodes ∧ p.2 ∈ net.dom p.1 ∧ ∀ c, net.cpds.get? p.1 = some c → c.kind ≠ .tabular := by
    intro p hp
    obtain ⟨w, hw, rfl⟩ := List.mem_map.1 hp
    have hwv := Graph.mem_parents.1 hw
    exact ⟨(hG.wf.edgeNodes _ _ hwv).1, ha w hwv, hT.notTabular w (hT.closed v hv w hwv)⟩
  obtain ⟨mg, hM, hyes, _⟩ := policiesOk_spec hG hdn hT.names pick (q := [v]) (ctx := Given (net.g.parents v) a) (int := [])
    (fun p hp => (hctx p hp).1) (by simp)
  have hpol := hyes (by
    intro d hd hun t ht
    simp only [List.mem_singleton] at ht
    subst ht
    rw [given_keys, List.map_nil, List.append_nil]
    refine not_reached_parents hG hT.names (by simpa using hM) (hdn d hd) hvn ?_ (fun z => Graph.mem_parents)
    rintro rfl
    rw [hT.decided d hd hvd] at hun
    cases hun)
  obtain ⟨f, hf⟩ := query_answer hG hN hT.joined (ord := ord) hord (q := [v]) (by simp) (by simpa using hvn) (by
    rw [given_keys]
    simp only [List.mem_singleton, forall_eq, Graph.mem_parents]
    intro he
    exact hG.wf.acyclic _ (TransGen.single he)) hctx hpol
  obtain ⟨_, _, _, _, k5, _⟩ := query_plain hG hN hT.joined hord hf
  refine ⟨f, hf, conditional_some k5 (hT.possible _ (fun w hw => hT.closed v hv w (Graph.mem_parents.1 hw)) a ?_)⟩
  exact fun w hw => ha w (Graph.mem_parents.1 hw)

/-- the query for the payoffs -/
theorem leaf_query {net : Net} (hG : Good net) (hN : net.Normalised) (hr : net.m.Consistent) {decs : List Node} {agents : List Agent}
    (hT : net.Treeable decs agents) {pick : Pick} {ord : List Node → List Node} (hord : ∀ l, (ord l).Perm l) {nodes : List Node}
    (hn : ∀ v, v ∈ nodes ↔ net.InTree decs v) {a : Assign} (ha : ∀ v ∈ nodes, a v ∈ net.dom v) {agent : Agent} (hag : agent ∈ agents) :
    ∃ r, net.expectedUtility pick ord (Given nodes a) [] agent = (net, .ok r) := by
  obtain ⟨us, hus, hne, hun⟩ := hT.utilities agent hag
  have hnn : ∀ v ∈ nodes, v ∈ net.g.nodes := fun v hv => treeable_nodes hG hr hT ((hn v).1 hv)
  have hdn : ∀ d ∈ net.m.decisions, d ∈ net.g.nodes := fun d hd => hr.nodes d (Or.inl hd)
  have hctx : ∀ p ∈ Given nodes a, p.1 ∈ net.g.nodes ∧ p.2 ∈ net.dom p.1 ∧ ∀ c, net.cpds.get? p.1 = some c → c.kind ≠ .tabular := by
    intro p hp
    obtain ⟨w, hw, rfl⟩ := List.mem_map.1 hp
    exact ⟨hnn w hw, ha w hw, hT.notTabular w ((hn w).1 hw)⟩
  obtain ⟨mg, hM, hyes, _⟩ := policiesOk_spec hG hdn hT.names pick (q := us) (ctx := Given nodes a) (int := [])
    (fun p hp => (hctx p hp).1) (by simp)
  have hpol := hyes (by
    intro d hd hun' t ht
    rw [given_keys, List.map_nil, List.append_nil]
    refine not_reached_ancestral hG hT.names (by simpa using hM) hnn (fun z hz p hp => (hn p).2 (hT.closed z ((hn z).1 hz) p hp)) ?_ (hun t ht).1
      (fun h => (hun t ht).2 ((hn t).1 h))
    rw [hn]
    by_contra hnd
    have hdd : d ∉ decs := fun h => hnd (Or.inl h)
    rw [hT.decided d hd hdd] at hun'
    cases hun')
  obtain ⟨f, hf⟩ := query_answer hG hN hT.joined (ord := ord) hord (q := us) hne (fun u hu => (hun u hu).1) (by
    rw [given_keys]
    exact fun u hu h => (hun u hu).2 ((hn u).1 h)) hctx hpol
  obtain ⟨_, _, _, _, k5, _⟩ := query_plain hG hN hT.joined hord hf
  have hpos := hT.possible nodes (fun v hv => (hn v).1 hv) a ha
  have hP : net.PDo [] = net.P := funext (PDo_nil net)
  have hev := evOf_conditional hG (int := []) (by simp) (by rw [hP]; exact hpos) (fun u hu => (hun u hu).1) (fun _ _ => .refl _) (by rw [hP]; exact k5)
  unfold expectedUtility expectedValue
  rw [Dict.get_ok.2 hus]
  simp only [hf, hev]
  exact ⟨_, rfl⟩

theorem walk_ok {t : Efg} : ∀ {idx pos : List Nat}, (∀ i1 j i2, idx = i1 ++ j :: i2 → j < t.arity (pos ++ i1)) → t.walk pos idx = .ok ()
  | [], _, _ => rfl
  | i :: rest, pos, h => by
    rw [Efg.walk, if_pos (by simpa using h [] i rest rfl)]
    apply walk_ok
    intro i1 j i2 e
    have := h (i :: i1) j i2 (by rw [e]; rfl)
    simpa using this

theorem parentsActions_runs {net : Net} {t : Efg} {idx : List Nat} {v : Node} {vs : List Node} {a : Assign}
    (hst : (t.states.get? idx).getD [] = Given vs a) (hv : v ∈ net.g.nodes) (hp : ∀ p, net.g.Edge p v → p ∈ vs) :
    net.parentsActions t idx v = .ok (Given (net.g.parents v) a) := by
  unfold parentsActions
  rw [if_neg (by simpa using hv)]
  unfold Given
  apply mapPy_map
  intro p hpv
  have : Dict.get (Given vs a) p = .ok (a p) := by
    rw [Dict.get_ok, given_get, if_pos (hp p (Graph.mem_parents.1 hpv))]
  rw [hst, this]

/-- the number of branches -/
theorem Grown.arity {net : Net} {decs : List Node} {agents : List Agent} (hd : net.Distinct decs) {L : List (List Node × Node × List Nat)} {t : Efg}
    (hI : Grown net decs agents L t) {vs : List Node} {v : Node} {idx : List Nat} (h : (vs, v, idx) ∈ L) :
    t.arity idx = (net.dom v).length := by
  obtain ⟨a, ha⟩ := hI.shape _ _ _ h
  obtain ⟨mv, h1, h2⟩ := hI.moves _ _ _ h a ha
  unfold Efg.arity
  rw [h1]
  rcases h2 with ⟨hv, ag, i, h3, h4, rfl, h5⟩ | ⟨_, rfl⟩
  · obtain ⟨s, s1, s2, d, a', s3, s4, s5, s6, s7⟩ := hI.keysOk _ _ h5
    have hdv : d = v := hd d s3 v hv (by rw [s4, h3]) (given_eq_map s5).1.symm
    simp only [s1, Option.map_some, Option.getD_some, s7 hd, hdv]
  · rfl

theorem growAt_runs {net : Net} (hG : Good net) (hN : net.Normalised) (hr : net.m.Consistent) {decs : List Node} {agents : List Agent}
    (hT : net.Treeable decs agents) {pick : Pick} {ord : List Node → List Node} (hord : ∀ l, (ord l).Perm l)
    {L : List (List Node × Node × List Nat)} {t : Efg}
    (hI : Grown net decs agents L t) {vs : List Node} {v : Node} {idx : List Nat} {a0 : Assign} (h0 : At net.dom vs idx (vs.map a0))
    (hv : net.InTree decs v) (hp : ∀ p, net.g.Edge p v → p ∈ vs) (hst : (t.states.get? idx).getD [] = Given vs a0)
    (hbefore : ∀ vs1 w vs2, vs = vs1 ++ w :: vs2 → ∀ idx1, At net.dom vs1 idx1 (vs1.map a0) → (vs1, w, idx1) ∈ L)
    (hnew : ∀ vs' v', (vs', v', idx) ∉ L) :
    ∃ t', growAt pick ord decs v net t idx = (net, .ok t') := by
  have hvn := treeable_nodes hG hr hT hv
  have hwalk : t.walk [] idx = .ok () := by
    apply walk_ok
    intro i1 j i2 e
    subst e
    obtain ⟨vs1, w, vs2, e1, h1, h2⟩ := h0.split
    rw [List.nil_append, hI.arity hT.distinct (hbefore vs1 w vs2 e1 i1 h1)]
    exact h2
  have hnone : t.moves.get? idx = none := by
    cases h : t.moves.get? idx with
    | none => rfl
    | some mv =>
      obtain ⟨vs', v', h'⟩ := hI.only idx mv h
      exact absurd h' (hnew vs' v')
  obtain ⟨c, hc, hd⟩ := hG.complete v hvn
  have hdv : net.domain.get v = .ok (net.dom v) := by
    rw [Dict.get_ok]
    unfold Net.dom
    rw [hd]; rfl
  have happ : ∀ mv, t.appendMove idx mv = .ok { t with moves := t.moves.set idx mv } := by
    intro mv
    unfold Efg.appendMove
    rw [hnone]
  unfold growAt
  rw [hwalk, parentsActions_runs hst hvn hp]
  simp only
  by_cases hdec : v ∈ decs
  · rw [if_pos hdec]
    obtain ⟨ag, hag, hrole⟩ := hT.owners v hdec
    have hda := role_decision.1 hrole
    rw [Dict.get_ok.2 hda]
    simp only
    rw [if_neg (by rw [hI.players]; simpa using hag), hdv]
    simp only [Prod.mk.injEq, true_and]
    unfold Efg.decideAt
    cases hk : t.keys.get? (ag, Given (net.g.parents v) a0) with
    | none =>
      simp only [happ]
      exact ⟨_, rfl⟩
    | some i =>
      obtain ⟨s, s1, s2, d, a', s3, s4, s5, s6, s7⟩ := hI.keysOk _ _ hk
      have hdv : d = v := hT.distinct d s3 v hdec (by rw [s4, hda]) (given_eq_map s5).1.symm
      simp only [happ, s1]
      rw [if_neg (by rw [s7 hT.distinct, hdv]; exact lt_irrefl _)]
      exact ⟨_, rfl⟩
  · rw [if_neg hdec]
    have hin := h0.mem
    obtain ⟨f, hf, hf2⟩ := chance_query hG hN hr hT (pick := pick) hord hv hdec (a := a0) (fun p hpv => hin p (hp p hpv))
    rw [hf]
    simp only [hf2, Bool.false_eq_true, if_false, hdv, happ]
    exact ⟨_, rfl⟩

theorem level_runs {net : Net} (hG : Good net) (hN : net.Normalised) (hr : net.m.Consistent) {decs : List Node} {agents : List Agent}
    (hT : net.Treeable decs agents) {pick : Pick} {ord : List Node → List Node} (hord : ∀ l, (ord l).Perm l) {vs : List Node} {v : Node}
    (hn : vs.Nodup) (hvs : ∀ w ∈ vs, w ∈ net.g.nodes) (hanc : ∀ u w, net.g.Edge u w → w ∈ vs → u ∈ vs) (hv : v ∉ vs)
    (hvt : net.InTree decs v) (hp : ∀ p, net.g.Edge p v → p ∈ vs) :
    ∀ (is : List (List Nat)) {L : List (List Node × Node × List Nat)} {t : Efg}, is.Nodup → Grown net decs agents L t →
    (∀ idx ∈ is, ∃ a0, At net.dom vs idx (vs.map a0)) →
    (∀ a0 : Assign, (∀ w ∈ vs, a0 w ∈ net.dom w) → ∀ vs1 w vs2, vs = vs1 ++ w :: vs2 → ∀ idx1, At net.dom vs1 idx1 (vs1.map a0) → (vs1, w, idx1) ∈ L) →
    (∀ idx ∈ is, ∀ vs' v', (vs', v', idx) ∉ L) →
    ∃ t', loopNet (growAt pick ord decs v) net t is = (net, .ok t')
  | [], L, t, _, _, _, _, _ => ⟨t, rfl⟩
  | idx :: is, L, t, hnd, hI, ha, hb, hnew => by
    obtain ⟨a0, h0⟩ := ha idx (by simp)
    have hst : (t.states.get? idx).getD [] = Given vs a0 := by
      rcases List.eq_nil_or_concat vs with e | ⟨vs', v', e⟩
      · subst e
        cases h0
        exact hI.root
      · rw [List.concat_eq_append] at e
        subst e
        obtain ⟨idx1, i1, xs1, x1, e1, e2, h1, h2⟩ := h0.unsnoc
        subst e1
        rw [List.map_append] at e2
        obtain ⟨e3, _⟩ := List.append_inj' e2 rfl
        exact hI.states _ _ _ (hb a0 h0.mem vs' v' [] rfl idx1 (e3 ▸ h1)) i1 a0 h0
    obtain ⟨t1, ht1⟩ := growAt_runs hG hN hr hT (pick := pick) hord hI h0 hvt hp hst (hb a0 h0.mem) (hnew idx (by simp))
    obtain ⟨_, hI'⟩ := growAt_grown hG hN hT.joined hord hI h0 hn hvs hanc hv hst ht1
    rw [List.nodup_cons] at hnd
    obtain ⟨t', ht'⟩ := level_runs hG hN hr hT hord hn hvs hanc hv hvt hp is (t := t1) hnd.2 hI' (fun idx' h' => ha idx' (by simp [h']))
      (fun a0 h0 vs1 w vs2 e idx1 h1 => by simp [hb a0 h0 vs1 w vs2 e idx1 h1]) (fun idx' h' vs' v' h => by
        rcases List.mem_append.1 h with h | h
        · exact hnew idx' (by simp [h']) vs' v' h
        · simp only [List.mem_singleton, Prod.mk.injEq] at h
          exact hnd.1 (h.2.2 ▸ h'))
    refine ⟨t', ?_⟩
    rw [loopNet, ht1]
    exact ht'

theorem growNodes_runs {net : Net} (hG : Good net) (hN : net.Normalised) (hr : net.m.Consistent) {decs : List Node} {agents : List Agent}
    (hT : net.Treeable decs agents) {pick : Pick} {ord : List Node → List Node} (hord : ∀ l, (ord l).Perm l) : ∀ (rest : List Node) {pre : List Node}
    {L : List (List Node × Node × List Nat)} {t : Efg}, (pre ++ rest).Nodup → (∀ w ∈ pre ++ rest, net.InTree decs w) →
    (∀ vs v post, pre ++ rest = vs ++ v :: post → ∀ p, net.g.Edge p v → p ∈ vs) → Positions net pre L → Grown net decs agents L t →
    ∃ t', growNodes pick ord decs net t (pre.map (fun v => List.range (net.dom v).length)) (rest.map (fun v => (v, (net.dom v).length))) = (net, .ok t')
  | [], pre, L, t, _, _, _, hL, hI => ⟨t, by simp [growNodes]⟩
  | v :: rest, pre, L, t, hn, hm, hc, hL, hI => by
    have hpn : pre.Nodup := (List.nodup_append.1 hn).1
    have hvp : v ∉ pre := fun hvp => (List.nodup_append.1 hn).2.2 v hvp v (by simp) rfl
    have hnode : ∀ w ∈ pre ++ v :: rest, w ∈ net.g.nodes := fun w hw => treeable_nodes hG hr hT (hm w hw)
    have hanc : ∀ u w, net.g.Edge u w → w ∈ pre → u ∈ pre := by
      intro u w huw hw
      obtain ⟨s1, s2, e⟩ := List.append_of_mem hw
      have := hc s1 w (s2 ++ v :: rest) (by rw [e]; simp) u huw
      rw [e]; simp [this]
    have hat : ∀ idx, idx ∈ product (pre.map (fun v => List.range (net.dom v).length)) ↔ ∃ a : Assign, At net.dom pre idx (pre.map a) := by
      intro idx
      rw [at_product]
      constructor
      · rintro ⟨xs, hxs⟩
        obtain ⟨a, rfl⟩ := hxs.assign hpn
        exact ⟨a, hxs⟩
      · rintro ⟨a, ha⟩
        exact ⟨_, ha⟩
    have hpar := hc pre v rest rfl
    have hnd : (product (pre.map (fun v => List.range (net.dom v).length))).Nodup := by
      apply nodup_product
      intro l hl
      obtain ⟨v, _, rfl⟩ := List.mem_map.1 hl
      exact List.nodup_range
    obtain ⟨t1, ht1⟩ := level_runs hG hN hr hT (pick := pick) hord hpn (fun w hw => hnode w (by simp [hw])) hanc hvp (hm v (by simp)) hpar _ hnd hI
      (fun idx hidx => (hat idx).1 hidx)
      (fun a0 h0 vs1 w vs2 e idx1 h1 => (hL _ _ _).2 ⟨⟨vs2, e⟩, a0, h1⟩)
      (fun idx hidx vs' v' h => by
        obtain ⟨⟨post, e⟩, a, h1⟩ := (hL _ _ _).1 h
        obtain ⟨b, h2⟩ := (hat idx).1 hidx
        have l1 := h1.lengths.1
        have l2 := h2.lengths.1
        rw [e, l1] at l2
        simp at l2)
    have hgrow := growNodes_grown hG hN hT.joined (pick := pick) hord [v] (pre := pre) (t' := t1) (net' := net) (by
        rw [show pre ++ v :: rest = (pre ++ [v]) ++ rest by simp] at hn
        exact (List.nodup_append.1 hn).1) (fun w hw => hnode w (by
          rcases List.mem_append.1 hw with h | h
          · simp [h]
          · simp only [List.mem_singleton] at h; simp [h])) hanc hL hI (by
        rw [List.map_cons, growNodes, ht1]
        simp [growNodes])
    obtain ⟨_, L', hL', hI'⟩ := hgrow
    obtain ⟨t', ht'⟩ := growNodes_runs hG hN hr hT (pick := pick) hord rest (pre := pre ++ [v]) (by simpa using hn) (by simpa using hm)
      (by simpa using hc) hL' hI'
    refine ⟨t', ?_⟩
    rw [List.map_cons, growNodes, ht1]
    simpa using ht'

theorem leafPayoffs_runs {net : Net} {pick : Pick} {ord : List Node → List Node} {ctx : List (Node × Outcome)} : ∀ {as : List Agent},
    (∀ ag ∈ as, ∃ r, net.expectedUtility pick ord ctx [] ag = (net, .ok r)) → ∃ rs, leafPayoffs pick ord ctx net as = (net, .ok rs)
  | [], _ => ⟨[], rfl⟩
  | a :: as, h => by
    obtain ⟨r, hr⟩ := h a (by simp)
    obtain ⟨rs, hrs⟩ := leafPayoffs_runs (as := as) (fun ag hag => h ag (by simp [hag]))
    refine ⟨r :: rs, ?_⟩
    unfold leafPayoffs
    rw [hr]
    simp only [hrs]

theorem payoffs_runs {net : Net} {pick : Pick} {ord : List Node → List Node} {agents : List Agent} : ∀ (is : List (List Nat)) {t : Efg},
    (∀ idx ∈ is, t.walk [] idx = .ok () ∧ ∀ ag ∈ agents, ∃ r, net.expectedUtility pick ord ((t.states.get? idx).getD []) [] ag = (net, .ok r)) →
    ∃ t', loopNet (addPayoff pick ord agents) net t is = (net, .ok t')
  | [], t, _ => ⟨t, rfl⟩
  | idx :: is, t, h => by
    obtain ⟨h1, h2⟩ := h idx (by simp)
    obtain ⟨rs, hrs⟩ := leafPayoffs_runs h2
    have hw : ∀ (t : Efg) (p : Dict (List Nat) (List Rat)) (idx pos : List Nat), Efg.walk { t with payoffs := p } pos idx = t.walk pos idx := by
      intro t p idx
      induction idx with
      | nil => intro pos; rfl
      | cons i rest ih =>
        intro pos
        unfold Efg.walk
        rw [ih]
        rfl
    obtain ⟨t', ht'⟩ := payoffs_runs is (t := { t with payoffs := t.payoffs.set idx rs }) (fun idx' h' => by
      rw [hw]
      exact h idx' (by simp [h']))
    refine ⟨t', ?_⟩
    rw [loopNet]
    unfold addPayoff
    rw [h1]
    simp only [hrs]
    exact ht'

theorem macidToEfg_runs {net : Net} (hG : Good net) (hN : net.Normalised) (hr : net.m.Consistent) {decs : List Node} {agents : List Agent}
    (hT : net.Treeable decs agents) (pick : Pick) (tpick : List Node → Nat) {ord : List Node → List Node} (hord : ∀ l, (ord l).Perm l) :
    ∃ t, macidToEfg pick tpick ord net decs agents = (net, .ok t) := by
  unfold macidToEfg
  have hdn : ∀ d ∈ decs, d ∈ net.g.nodes := fun d hd => treeable_nodes hG hr hT (Or.inl hd)
  have hall : ¬ decs.all net.g.hasNode = false := by
    rw [Bool.not_eq_false, List.all_eq_true]
    intro d hd
    simpa [Graph.hasNode] using hdn d hd
  rw [if_neg hall]
  have hnn : ∀ v ∈ decs ++ decs.flatMap net.g.parents, v ∈ net.g.nodes := by
    intro v hv
    rcases List.mem_append.1 hv with h | h
    · exact hdn v h
    · obtain ⟨d, _, hvd⟩ := List.mem_flatMap.1 h
      exact (hG.wf.edgeNodes _ _ (Graph.mem_parents.1 hvd)).1
  obtain ⟨nodes, o1, o2, o3, o4⟩ := (C14_get_valid_order net.m hG.wf tpick (decs ++ decs.flatMap net.g.parents)).1 hnn
  rw [o1]
  simp only
  have hmem : ∀ v, v ∈ nodes ↔ net.InTree decs v := by
    intro v
    rw [o3, List.mem_append, List.mem_flatMap]
    simp only [Graph.mem_parents, InTree]
  have hnode : ∀ v ∈ nodes, v ∈ net.g.nodes := fun v hv => hnn v ((o3 v).1 hv)
  have hdoms : mapPy (fun v => net.domain.get v) nodes = .ok (nodes.map net.dom) := by
    apply mapPy_map
    intro v hv
    obtain ⟨c, hc, hd⟩ := hG.complete v (hnode v hv)
    rw [Dict.get_ok]
    unfold Net.dom
    rw [hd]; rfl
  rw [hdoms]
  simp only
  rw [List.map_map, zip_map_self nodes]
  have hstart : Grown net decs agents [] ⟨agents, [], [], [], [], []⟩ := by
    constructor <;> simp [Dict.get?]
  have hclosed : ∀ vs v post, nodes = vs ++ v :: post → ∀ p, net.g.Edge p v → p ∈ vs := by
    intro vs v post e p hp
    have hpn : p ∈ nodes := (hmem p).2 (hT.closed v ((hmem v).1 (by rw [e]; simp)) p hp)
    rw [e] at hpn o4
    rcases List.mem_append.1 hpn with h | h
    · exact h
    · exfalso
      rw [List.pairwise_append] at o4
      rcases List.mem_cons.1 h with rfl | h
      · exact hG.wf.acyclic _ (TransGen.single hp)
      · exact (List.pairwise_cons.1 o4.2.1).1 p h (TransGen.single hp)
  have hpos : Positions net [] [] := by intro vs v idx; simp
  obtain ⟨t1, ht1⟩ := growNodes_runs hG hN hr hT (pick := pick) hord nodes (pre := []) (by simpa using o2) (by simpa using fun v hv => (hmem v).1 hv)
    (by simpa using hclosed) hpos hstart
  rw [List.map_nil] at ht1
  have ht1' : growNodes pick ord decs net ⟨agents, [], [], [], [], []⟩ [] (nodes.map (fun x => (x, (List.length ∘ net.dom) x))) = (net, .ok t1) := ht1
  rw [ht1']
  simp only
  obtain ⟨_, L, hL, hI⟩ := growNodes_grown hG hN hT.joined hord nodes (pre := []) (by simpa using o2) (by simpa using hnode) (by simp)
    hpos hstart ht1
  rw [List.nil_append] at hL
  apply payoffs_runs
  intro idx hidx
  rw [List.map_map] at hidx
  have hidx' : idx ∈ product (nodes.map (fun v => List.range (net.dom v).length)) := hidx
  obtain ⟨xs, hxs⟩ := at_product.1 hidx'
  obtain ⟨a, rfl⟩ := hxs.assign o2
  constructor
  · apply walk_ok
    intro i1 j i2 e
    subst e
    obtain ⟨vs1, w, vs2, e1, h1, h2⟩ := hxs.split
    rw [List.nil_append, hI.arity hT.distinct ((hL _ _ _).2 ⟨⟨vs2, e1⟩, a, h1⟩)]
    exact h2
  · have hst : (t1.states.get? idx).getD [] = Given nodes a := by
      rcases List.eq_nil_or_concat nodes with e | ⟨vs', v', e⟩
      · subst e
        cases hxs
        exact hI.root
      · rw [List.concat_eq_append] at e
        subst e
        obtain ⟨idx1, i1, xs1, x1, e1, e2, h1, h2⟩ := hxs.unsnoc
        subst e1
        rw [List.map_append] at e2
        obtain ⟨e3, _⟩ := List.append_inj' e2 rfl
        exact hI.states vs' v' idx1 ((hL _ _ _).2 ⟨⟨[], rfl⟩, a, e3 ▸ h1⟩) i1 a hxs
    rw [hst]
    exact fun ag hag => leaf_query hG hN hr hT hord hmem hxs.mem hag

end Net
end Verif

import Verif.Props.Paths
import Verif.Lemmas.Random
import Verif.Lemmas.Relevance

/-!
# Adding edges for sufficient recall
-/

namespace Verif
namespace Random

open Relation Macid Graph

/-- `mg` is the mechanism graph of `g` -/
structure Mech (g mg : Graph) : Prop where
  wf : g.WF
  free : MecFree g
  mwf : mg.WF
  edge : ∀ a b, mg.Edge a b ↔ g.Edge a b ∨ (b ∈ g.nodes ∧ a = mec b)
  nodes : ∀ x, x ∈ mg.nodes ↔ x ∈ g.nodes ∨ ∃ n ∈ g.nodes, x = mec n

theorem Mech.ext {g mg : Graph} (h : Mech g mg) : SourceExt g mg (fun a b => b ∈ g.nodes ∧ a = mec b) := sourceExt_mech h.free h.edge

theorem Mech.mec_not {g mg : Graph} (h : Mech g mg) {v : Node} (hv : v ∈ g.nodes) : mec v ∉ g.nodes := fun hm => h.free.1 _ hm v hv rfl

theorem Mech.descEq {g mg : Graph} (h : Mech g mg) {a b : Node} (ha : a ∈ g.nodes) : mg.DescEq a b ↔ g.DescEq a b :=
  h.ext.descEq_old h.wf ha

theorem addNode_self {g : Graph} {v : Node} (h : v ∈ g.nodes) : g.addNode v = g := by simp [addNode, h]

theorem nxAddEdge_nodes_eq {g : Graph} {u v : Node} (hu : u ∈ g.nodes) (hv : v ∈ g.nodes) : (g.nxAddEdge u v).nodes = g.nodes := by
  unfold nxAddEdge
  simp only [addNode_self hu, addNode_self hv]
  split <;> rfl

theorem addEdge_of {g : Graph} (hw : g.WF) {u v : Node} (h : ¬ g.DescEq v u) : g.addEdge u v = .ok (g.nxAddEdge u v) := by
  unfold addEdge
  rw [if_neg (by rintro rfl; exact h .refl), if_neg]
  rintro ⟨_, _, hp⟩
  exact h ((hasPath_iff hw).1 hp)

/-- the same edge is added to both graphs -/
theorem Mech.add {g mg : Graph} (h : Mech g mg) {v d : Node} (hv : v ∈ g.nodes) (hd : d ∈ g.nodes) (hc : ¬ g.DescEq d v) :
    g.addEdge v d = .ok (g.nxAddEdge v d) ∧ mg.addEdge v d = .ok (mg.nxAddEdge v d) ∧ Mech (g.nxAddEdge v d) (mg.nxAddEdge v d) := by
  have hmc : ¬ mg.DescEq d v := fun hd' => hc ((h.descEq hd).1 hd')
  have hn := nxAddEdge_nodes_eq hv hd
  refine ⟨addEdge_of h.wf hc, addEdge_of h.mwf hmc, wf_nxAddEdge h.wf hc, ?_, wf_nxAddEdge h.mwf hmc, ?_, ?_⟩
  · unfold MecFree
    rw [hn]
    exact h.free
  · intro a b
    rw [nxAddEdge_edge, nxAddEdge_edge, h.edge, hn]
    tauto
  · intro x
    rw [nxAddEdge_nodes, hn, h.nodes]
    constructor
    · rintro (h1 | rfl | rfl)
      · exact h1
      · exact Or.inl hv
      · exact Or.inl hd
    · exact Or.inl

theorem pickNode_ok {mg : Graph} {path : List Node} {d2 : Node} : ∀ {ω : Draws} {v : Node} {ω' : Draws},
    pickNode mg path d2 ω = some (.ok (v, ω')) → ω'.length < ω.length ∧
      ∃ idx mo, 1 ≤ idx ∧ idx + 1 < path.length ∧ path[idx]? = some v ∧ getMotif mg path idx = .ok mo ∧ mo ≠ .collider ∧
        d2 ∉ mg.ancestorsOf [v]
  | [], v, ω', h => by
    unfold pickNode at h
    split at h <;> simp at h
  | r :: ω, v, ω', h => by
    unfold pickNode at h
    split at h
    · simp at h
    rename_i hlen
    dsimp only at h
    split at h
    · simp at h
    · simp at h
    rename_i mo w h1 h2
    split at h
    · rename_i hc
      simp only [Option.some.injEq, Except.ok.injEq, Prod.mk.injEq] at h
      obtain ⟨rfl, rfl⟩ := h
      have hm : r % (path.length - 2) < path.length - 2 := Nat.mod_lt _ (by omega)
      exact ⟨by simp, _, mo, by omega, by omega, h2, h1, hc.1, hc.2⟩
    · obtain ⟨q1, q2⟩ := pickNode_ok h
      exact ⟨by simp only [List.length_cons]; omega, q2⟩

/-- a position inside a list -/
theorem split_at {α : Type} {p : List α} {idx : Nat} {v : α} (h1 : 1 ≤ idx) (h2 : idx + 1 < p.length) (hv : p[idx]? = some v) :
    ∃ l a c r, p = l ++ a :: v :: c :: r ∧ l.length + 1 = idx := by
  refine ⟨p.take (idx - 1), p[idx - 1], p[idx + 1], p.drop (idx + 2), ?_, by rw [List.length_take]; omega⟩
  rw [List.getElem?_eq_some_iff] at hv
  obtain ⟨h3, e⟩ := hv
  subst e
  have e1 : p.drop (idx - 1) = p[idx - 1] :: p.drop idx := by
    rw [List.drop_eq_getElem_cons (by omega)]
    congr 2
    omega
  conv_lhs => rw [← List.take_append_drop (idx - 1) p]
  rw [e1, List.drop_eq_getElem_cons (show idx < p.length by omega), List.drop_eq_getElem_cons (show idx + 1 < p.length by omega)]

/-- an inner node of a path of the mechanism graph is not a mechanism -/
theorem Mech.inner {g mg : Graph} (h : Mech g mg) {s t : Node} {l r : List Node} {a v c : Node}
    (hp : mg.IsUndirPath s t (l ++ a :: v :: c :: r)) : v ∈ g.nodes := by
  by_contra hv
  have hch := hp.2.2.1
  have hnd := hp.2.2.2
  have h1 : mg.Adj a v ∧ mg.Adj v c := by
    have := (List.isChain_append.1 hch).2.1
    rw [List.isChain_cons_cons, List.isChain_cons_cons] at this
    exact ⟨this.1, this.2.1⟩
  have e1 := h.ext.adj_new h.wf hv h1.1.symm
  have e2 := h.ext.adj_new h.wf hv h1.2
  have : a = c := mec_inj (e1.2.symm.trans e2.2)
  subst this
  have := (List.nodup_append.1 hnd).2.1
  simp at this

/-- what is true of the state when a node has been picked -/
theorem Mech.picked {g mg : Graph} (h : Mech g mg) {ord : SetOrder} (ho : ord.Valid) {d1 d2 u : Node} (h1 : d1 ∈ g.nodes) (h2 : d2 ∈ g.nodes)
    (hu : u ∈ g.nodes) {path : List Node} (hp : findActivePath ord mg (mec d1) u (d2 :: mg.parents d2) = .ok path) {ω ω' : Draws} {v : Node}
    (hv : pickNode mg path d2 ω = some (.ok (v, ω'))) :
    v ∈ g.nodes ∧ ¬ g.DescEq d2 v ∧ ¬ g.Edge v d2 ∧ (∃ c, g.Edge v c) ∧ ω'.length < ω.length := by
  have hmem : ∀ x ∈ (d2 :: mg.parents d2) ++ [mec d1, u], x ∈ mg.nodes := by
    intro x hx
    simp only [List.mem_append, List.mem_cons, List.not_mem_nil, or_false] at hx
    rcases hx with (rfl | hx) | rfl | rfl
    · exact (h.nodes _).2 (Or.inl h2)
    · exact (h.mwf.edgeNodes _ _ (mem_parents.1 hx)).1
    · exact (h.nodes _).2 (Or.inr ⟨d1, h1, rfl⟩)
    · exact (h.nodes _).2 (Or.inl hu)
  obtain ⟨k1, k2, k3⟩ := ((C07_find_active_path mg h.mwf ord ho (mec d1) u (d2 :: mg.parents d2)).2 hmem).1 path hp
  obtain ⟨q0, idx, mo, q1, q2, q3, q4, q5, q6⟩ := pickNode_ok hv
  obtain ⟨l, a, c, r, rfl, hl⟩ := split_at q1 q2 q3
  have hs : mec d1 ∈ mg.nodes := hmem _ (by simp)
  have hin := h.inner k1
  have hch := (List.isChain_append.1 k1.2.2.1).2.1
  rw [List.isChain_cons_cons, List.isChain_cons_cons] at hch
  have hsub := undirPath_subset h.mwf hs k1
  rw [← hl] at q4
  have hmo := ((C05_get_motif_interior mg h.mwf l r a v c hsub hch.1 hch.2.1).2 mo).1 q4
  have hncol : ¬ (mg.Edge a v ∧ mg.Edge c v) := by
    rintro ⟨e1, e2⟩
    have := ((C05_get_motif_interior mg h.mwf l r a v c hsub hch.1 hch.2.1).2 .collider).2 ⟨e1, e2⟩
    rw [q4] at this
    cases this
    exact q5 rfl
  have hvz := (k2 l a v c r rfl).2 hncol
  refine ⟨hin, ?_, ?_, ?_, q0⟩
  · intro hd
    exact q6 ((mem_ancestorsOf h.mwf).2 ⟨v, by simp, (h.descEq h2).2 hd⟩)
  · intro he
    exact hvz (List.mem_cons_of_mem _ (mem_parents.2 ((h.edge _ _).2 (Or.inl he))))
  · have : mg.Edge v a ∨ mg.Edge v c := by
      rcases hch.1 with e1 | e1
      · rcases hch.2.1 with e2 | e2
        · exact Or.inr e2
        · exact absurd ⟨e1, e2⟩ hncol
      · exact Or.inl e1
    rcases this with e | e
    · exact ⟨a, (h.ext.edge_old hin).1 e⟩
    · exact ⟨c, (h.ext.edge_old hin).1 e⟩

/-- what the rounds do to the graph -/
structure Recalled (d2 : Node) (g g' : Graph) : Prop where
  wf : g'.WF
  nodes : g'.nodes = g.nodes
  old : ∀ a b, g.Edge a b → g'.Edge a b
  new : ∀ a b, g'.Edge a b → g.Edge a b ∨ (b = d2 ∧ ∃ c, g.Edge a c)

theorem rounds_ok {pick : Pick} {ord : SetOrder} (ho : ord.Valid) {d1 d2 u : Node} : ∀ {fuel : Nat} {ω : Draws} {mb : Macid} {mg : Graph}
    {mb' : Macid} {ω' : Draws}, Mech mb.g mg → d1 ∈ mb.g.nodes → d2 ∈ mb.g.nodes → u ∈ mb.g.nodes →
    recallRounds pick ord d1 d2 u fuel ω mb mg = some (.ok (mb', ω')) →
    mb' = { mb with g := mb'.g } ∧ Recalled d2 mb.g mb'.g ∧ ∃ mg', Mech mb'.g mg' ∧
      isDConnected pick mg' (mec d1) u (mg'.parents d2 ++ [d2]) = .ok false
  | 0, ω, mb, mg, mb', ω', hM, h1, h2, hu, h => by simp [recallRounds] at h
  | fuel + 1, ω, mb, mg, mb', ω', hM, h1, h2, hu, h => by
    unfold recallRounds at h
    split at h
    · simp at h
    · rename_i hd
      simp only [Option.some.injEq, Except.ok.injEq, Prod.mk.injEq] at h
      obtain ⟨rfl, rfl⟩ := h
      exact ⟨rfl, ⟨hM.wf, rfl, fun _ _ h => h, fun _ _ h => Or.inl h⟩, mg, hM, hd⟩
    · split at h
      · simp at h
      rename_i path hp
      split at h
      · simp at h
      · simp at h
      rename_i v ω1 hv
      obtain ⟨q1, q2, q3, q4, q5⟩ := hM.picked ho h1 h2 hu hp hv
      obtain ⟨e1, e2, e3⟩ := hM.add q1 h2 q2
      rw [e1, e2] at h
      simp only at h
      have hn := nxAddEdge_nodes_eq q1 h2
      obtain ⟨k1, k2, k3⟩ := rounds_ok ho (mb := { mb with g := mb.g.nxAddEdge v d2 }) e3 (by simpa only [hn] using h1)
        (by simpa only [hn] using h2) (by simpa only [hn] using hu) h
      refine ⟨?_, ⟨k2.wf, k2.nodes.trans hn, fun a b he => k2.old a b (nxAddEdge_edge.2 (Or.inl he)), ?_⟩, k3⟩
      · exact k1
      · intro a b he
        rcases k2.new a b he with he | ⟨rfl, c, hc⟩
        · rcases nxAddEdge_edge.1 he with he | ⟨rfl, rfl⟩
          · exact Or.inl he
          · exact Or.inr ⟨rfl, q4⟩
        · rcases nxAddEdge_edge.1 hc with hc | ⟨rfl, rfl⟩
          · exact Or.inr ⟨rfl, c, hc⟩
          · exact Or.inr ⟨rfl, q4⟩

/-- observing the mechanism of the decision makes no difference -/
theorem Mech.separated {g mg : Graph} (h : Mech g mg) (pick : Pick) {d1 d2 u : Node} (h1 : d1 ∈ g.nodes) (h2 : d2 ∈ g.nodes) (hu : u ∈ g.nodes)
    (hne : d1 ≠ d2) (hf : isDConnected pick mg (mec d1) u (mg.parents d2 ++ [d2]) = .ok false) :
    ∀ Z n, (∀ z, z ∈ Z ↔ z = d2 ∨ g.Edge z d2) → n ∉ g.nodes → ¬ (g.withParent n d1).DConn n u Z := by
  intro Z n hZ hn hD
  have hZn : ∀ z ∈ Z, z ∈ g.nodes := by
    intro z hz
    rcases (hZ z).1 hz with rfl | he
    · exact h2
    · exact (h.wf.edgeNodes _ _ he).1
  have hI := ((sourceExt_withParent hn h1).dconn_iff h.wf ⟨rfl, rfl⟩ hu hZn).1 hD
  have hD2 := (h.ext.dconn_iff h.wf ⟨h1, rfl⟩ hu hZn).2 hI
  have hs : mec d1 ∈ mg.nodes := (h.nodes _).2 (Or.inr ⟨d1, h1, rfl⟩)
  have hz' : ∀ z ∈ mg.parents d2 ++ [d2], z ∈ mg.nodes := by
    intro z hz
    simp only [List.mem_append, List.mem_singleton] at hz
    rcases hz with hz | rfl
    · exact (h.mwf.edgeNodes _ _ (mem_parents.1 hz)).1
    · exact (h.nodes _).2 (Or.inl h2)
  obtain ⟨b, hb1, hb2⟩ := C08_is_dconnected mg h.mwf pick (mec d1) u _ hs hz'
  rw [hf] at hb1
  cases hb1
  have : ∀ z, z ∈ mec d2 :: Z ↔ z ∈ mg.parents d2 ++ [d2] := by
    intro z
    simp only [List.mem_cons, List.mem_append, mem_parents, h.edge, hZ, List.not_mem_nil, or_false]
    constructor
    · rintro (rfl | rfl | he)
      · exact Or.inl (Or.inr ⟨h2, rfl⟩)
      · exact Or.inr rfl
      · exact Or.inl (Or.inl he)
    · rintro ((he | ⟨_, rfl⟩) | rfl)
      · exact Or.inr (Or.inr he)
      · exact Or.inl rfl
      · exact Or.inr (Or.inl rfl)
  refine absurd (hb2.2 (dconn_congr this ?_)) (by simp)
  obtain ⟨k1, k2, p, k3, k4⟩ := hD2
  refine ⟨?_, ?_, p, k3, ?_⟩
  · simp only [List.mem_cons, not_or]
    exact ⟨fun e => hne (mec_inj e), k1⟩
  · simp only [List.mem_cons, not_or]
    exact ⟨fun e => h.mec_not h2 (e ▸ hu), k2⟩
  · rintro l a v c r rfl
    obtain ⟨q1, q2⟩ := k4 l a v c r rfl
    refine ⟨fun hc => ?_, fun hc => ?_⟩
    · obtain ⟨z, hz, hd⟩ := q1 hc
      exact ⟨z, List.mem_cons_of_mem _ hz, hd⟩
    · simp only [List.mem_cons, not_or]
      exact ⟨fun e => h.mec_not h2 (e ▸ h.inner k3), q2 hc⟩

/-! ### the loops do not raise and can be left -/

/-- what keeps the rounds going -/
structure Able (g : Graph) (d1 d2 u : Node) : Prop where
  mem1 : d1 ∈ g.nodes
  mem2 : d2 ∈ g.nodes
  memu : u ∈ g.nodes
  earlier : ¬ g.DescEq d2 d1
  ne : u ≠ d1
  edge : ¬ g.Edge u d1

theorem descEq_add {g : Graph} {v d x : Node} (h : (g.nxAddEdge v d).DescEq d x) : g.DescEq d x := by
  induction h with
  | refl => exact .refl
  | tail _ he ih =>
    rcases nxAddEdge_edge.1 he with he | ⟨_, rfl⟩
    · exact ih.tail he
    · exact .refl

theorem Able.add {g : Graph} {d1 d2 u v : Node} (h : Able g d1 d2 u) (hv : v ∈ g.nodes) : Able (g.nxAddEdge v d2) d1 d2 u := by
  have hn := nxAddEdge_nodes_eq hv h.mem2
  refine ⟨by rw [hn]; exact h.mem1, by rw [hn]; exact h.mem2, by rw [hn]; exact h.memu, fun hd => h.earlier (descEq_add hd), h.ne, ?_⟩
  intro he
  rcases nxAddEdge_edge.1 he with he | ⟨_, e⟩
  · exact h.edge he
  · exact h.earlier (e ▸ .refl)

/-- a path that can be used -/
structure Found (mg : Graph) (d1 d2 u : Node) (path : List Node) : Prop where
  isPath : mg.IsUndirPath (mec d1) u path
  active : mg.Active (d2 :: mg.parents d2) path

theorem pick_step {mg : Graph} {path : List Node} {d2 : Node} {r : Nat} {ω : Draws} {mo : Motif} {v : Node} (hlen : ¬ path.length ≤ 2)
    (h1 : getMotif mg path (1 + r % (path.length - 2)) = .ok mo) (h2 : path[1 + r % (path.length - 2)]? = some v) :
    pickNode mg path d2 (r :: ω) = if mo ≠ .collider ∧ d2 ∉ mg.ancestorsOf [v] then some (.ok (v, ω)) else pickNode mg path d2 ω := by
  rw [pickNode.eq_def]
  simp only [hlen, if_false, h1, h2]

theorem Found.long {g mg : Graph} (h : Mech g mg) {d1 d2 u : Node} (ha : Able g d1 d2 u) {path : List Node} (hf : Found mg d1 d2 u path) :
    ∃ c r, path = mec d1 :: d1 :: c :: r := by
  obtain ⟨k1, k2, k3, k4⟩ := hf.isPath
  match path, k1, k2, k3 with
  | [], k1, _, _ => simp at k1
  | [a], k1, k2, _ =>
    simp only [List.head?_cons, Option.some.injEq, List.getLast?_singleton] at k1 k2
    exact absurd ha.memu (k2 ▸ k1 ▸ h.mec_not ha.mem1)
  | [a, b], k1, k2, k3 =>
    simp only [List.head?_cons, Option.some.injEq] at k1
    subst k1
    have e := h.ext.adj_new h.wf (h.mec_not ha.mem1) (List.isChain_cons_cons.1 k3).1
    have := mec_inj e.2
    subst this
    simp at k2
    exact absurd k2.symm ha.ne
  | a :: b :: c :: r, k1, k2, k3 =>
    simp only [List.head?_cons, Option.some.injEq] at k1
    subst k1
    have e := h.ext.adj_new h.wf (h.mec_not ha.mem1) (List.isChain_cons_cons.1 k3).1
    have := mec_inj e.2
    subst this
    exact ⟨c, r, rfl⟩

/-- every draw gives a node of the path with its motif -/
theorem Found.draw {g mg : Graph} (h : Mech g mg) {d1 d2 u : Node} (ha : Able g d1 d2 u) {path : List Node} (hf : Found mg d1 d2 u path) (r : Nat) :
    ∃ mo v, getMotif mg path (1 + r % (path.length - 2)) = .ok mo ∧ path[1 + r % (path.length - 2)]? = some v := by
  obtain ⟨c, r', e⟩ := hf.long h ha
  have hlen : 3 ≤ path.length := by rw [e]; simp
  have hm : r % (path.length - 2) < path.length - 2 := Nat.mod_lt _ (by omega)
  generalize hi : 1 + r % (path.length - 2) = idx
  have hv : path[idx]? = some path[idx] := List.getElem?_eq_getElem (by omega)
  obtain ⟨l, a, c, t, e', hl⟩ := split_at (by omega) (by omega) hv
  have hch := hf.isPath.2.2.1
  rw [e'] at hch
  have hch := (List.isChain_append.1 hch).2.1
  rw [List.isChain_cons_cons, List.isChain_cons_cons] at hch
  have hs : mec d1 ∈ mg.nodes := (h.nodes _).2 (Or.inr ⟨d1, ha.mem1, rfl⟩)
  have hsub := undirPath_subset h.mwf hs hf.isPath
  obtain ⟨mo, hmo⟩ := (C05_get_motif_interior mg h.mwf l t a path[idx] c (by rw [← e']; exact hsub) hch.1 hch.2.1).1
  rw [← e', hl] at hmo
  exact ⟨mo, _, hmo, hv⟩

theorem Found.pick_no_error {g mg : Graph} (h : Mech g mg) {d1 d2 u : Node} (ha : Able g d1 d2 u) {path : List Node} (hf : Found mg d1 d2 u path)
    {e : Err} : ∀ {ω : Draws}, pickNode mg path d2 ω ≠ some (.error e)
  | [] => by
    obtain ⟨c, r, rfl⟩ := hf.long h ha
    simp [pickNode]
  | r :: ω => by
    obtain ⟨mo, v, h1, h2⟩ := hf.draw h ha r
    have hlen : ¬ path.length ≤ 2 := by
      obtain ⟨c, r', e⟩ := hf.long h ha
      rw [e]
      simp
    rw [pick_step hlen h1 h2]
    split
    · simp
    · exact hf.pick_no_error h ha

/-- some draw is accepted -/
theorem Found.good {g mg : Graph} (h : Mech g mg) {d1 d2 u : Node} (ha : Able g d1 d2 u) {path : List Node} (hf : Found mg d1 d2 u path) :
    ∃ r v, ∀ ω, pickNode mg path d2 (r :: ω) = some (.ok (v, ω)) := by
  obtain ⟨c, t, e⟩ := hf.long h ha
  have hlen : 3 ≤ path.length := by rw [e]; simp
  have hs : mec d1 ∈ mg.nodes := (h.nodes _).2 (Or.inr ⟨d1, ha.mem1, rfl⟩)
  have hsub := undirPath_subset h.mwf hs hf.isPath
  have hch := hf.isPath.2.2.1
  rw [e, List.isChain_cons_cons, List.isChain_cons_cons] at hch
  have hnd := hf.isPath.2.2.2
  have key : ∀ idx l a v b t', path = l ++ a :: v :: b :: t' → l.length + 1 = idx → ¬ (mg.Edge a v ∧ mg.Edge b v) → ¬ g.DescEq d2 v →
      ∃ r v, ∀ ω, pickNode mg path d2 (r :: ω) = some (.ok (v, ω)) := by
    intro idx l a v b t' e' hl hnc hd
    have hlt : idx - 1 < path.length - 2 := by rw [e']; simp; omega
    obtain ⟨mo, v', q1, q2⟩ := hf.draw h ha (idx - 1)
    have hmod : 1 + (idx - 1) % (path.length - 2) = idx := by rw [Nat.mod_eq_of_lt hlt]; omega
    have hv : v' = v := by
      rw [hmod, e', ← hl, show l ++ a :: v :: b :: t' = (l ++ [a]) ++ v :: b :: t' by simp] at q2
      rw [List.getElem?_append_right (by simp)] at q2
      simpa using q2.symm
    subst hv
    refine ⟨idx - 1, v', fun ω => ?_⟩
    rw [pick_step (by omega) q1 q2, if_pos]
    refine ⟨?_, ?_⟩
    · rintro rfl
      rw [hmod, ← hl, e'] at q1
      have hch := hf.isPath.2.2.1
      rw [e'] at hch
      have hch := (List.isChain_append.1 hch).2.1
      rw [List.isChain_cons_cons, List.isChain_cons_cons] at hch
      exact hnc (((C05_get_motif_interior mg h.mwf l t' a v' b (by rw [← e']; exact hsub) hch.1 hch.2.1).2 .collider).1 q1)
    · intro hm
      obtain ⟨w, hw, hd'⟩ := (mem_ancestorsOf h.mwf).1 hm
      simp only [List.mem_singleton] at hw
      subst hw
      exact hd ((h.descEq ha.mem2).1 hd')
  by_cases hc : mg.Edge c d1
  · have hc1 : g.Edge c d1 := by
      rcases (h.edge _ _).1 hc with hc | ⟨_, rfl⟩
      · exact hc
      · rw [e] at hnd
        simp at hnd
    match t, e, hch with
    | [], e, _ =>
      have := hf.isPath.2.1
      rw [e] at this
      simp at this
      subst this
      exact absurd hc1 ha.edge
    | b :: t, e, hch =>
      refine key 2 [mec d1] d1 c b t (by simpa using e) rfl ?_ ?_
      · rintro ⟨e1, _⟩
        exact h.mwf.acyclic _ ((TransGen.single hc).tail e1)
      · intro hd
        exact ha.earlier (hd.tail hc1)
  · exact key 1 [] (mec d1) d1 c t (by simpa using e) rfl (fun hh => hc hh.2) ha.earlier

theorem pick_none {mg : Graph} {path : List Node} {d2 : Node} {x : Draws} : ∀ {ω : Draws}, pickNode mg path d2 ω = none →
    pickNode mg path d2 (ω ++ x) = pickNode mg path d2 x
  | [], _ => rfl
  | r :: ω, h => by
    rw [List.cons_append, pickNode.eq_def]
    rw [pickNode.eq_def] at h
    split at h
    · rename_i hr
      simp at hr
    · rename_i r' ω' hr
      simp only [List.cons.injEq] at hr
      obtain ⟨rfl, rfl⟩ := hr
      split at h
      · simp at h
      rename_i hlen
      dsimp only at h ⊢
      rw [if_neg hlen]
      split at h
      · simp at h
      · simp at h
      rename_i h1 h2
      split at h
      · simp at h
      rename_i hc
      rw [if_neg hc]
      exact pick_none h

theorem pick_some {mg : Graph} {path : List Node} {d2 : Node} {x : Draws} : ∀ {ω : Draws} {v : Node} {ω' : Draws},
    pickNode mg path d2 ω = some (.ok (v, ω')) → pickNode mg path d2 (ω ++ x) = some (.ok (v, ω' ++ x))
  | [], v, ω', h => by
    unfold pickNode at h
    split at h <;> simp at h
  | r :: ω, v, ω', h => by
    rw [List.cons_append, pickNode.eq_def]
    rw [pickNode.eq_def] at h
    split at h
    · rename_i hr
      simp at hr
    · rename_i r' ω1 hr
      simp only [List.cons.injEq] at hr
      obtain ⟨rfl, rfl⟩ := hr
      split at h
      · simp at h
      rename_i hlen
      dsimp only at h ⊢
      rw [if_neg hlen]
      split at h
      · simp at h
      · simp at h
      rename_i h1 h2
      split at h
      · rename_i hc
        rw [if_pos hc]
        simp only [Option.some.injEq, Except.ok.injEq, Prod.mk.injEq] at h ⊢
        exact ⟨h.1, by rw [h.2]⟩
      rename_i hc
      rw [if_neg hc]
      exact pick_some h

/-- the test of the outer loop, and the path that is found -/
theorem Mech.test {g mg : Graph} (h : Mech g mg) (pick : Pick) {ord : SetOrder} (ho : ord.Valid) {d1 d2 u : Node} (ha : Able g d1 d2 u) :
    isDConnected pick mg (mec d1) u (mg.parents d2 ++ [d2]) = .ok false ∨
    isDConnected pick mg (mec d1) u (mg.parents d2 ++ [d2]) = .ok true ∧
      ∃ path, findActivePath ord mg (mec d1) u (d2 :: mg.parents d2) = .ok path ∧ Found mg d1 d2 u path := by
  have hs : mec d1 ∈ mg.nodes := (h.nodes _).2 (Or.inr ⟨d1, ha.mem1, rfl⟩)
  have hz : ∀ z ∈ d2 :: mg.parents d2, z ∈ mg.nodes := by
    intro z hz
    simp only [List.mem_cons] at hz
    rcases hz with rfl | hz
    · exact (h.nodes _).2 (Or.inl ha.mem2)
    · exact (h.mwf.edgeNodes _ _ (mem_parents.1 hz)).1
  have hz' : ∀ z ∈ mg.parents d2 ++ [d2], z ∈ mg.nodes := by
    intro z hm
    apply hz
    simp only [List.mem_append, List.mem_cons, List.not_mem_nil, or_false] at hm ⊢
    tauto
  obtain ⟨b, hb1, hb2⟩ := C08_is_dconnected mg h.mwf pick (mec d1) u _ hs hz'
  rw [hb1]
  cases b with
  | false => exact Or.inl rfl
  | true =>
    refine Or.inr ⟨rfl, ?_⟩
    have hD : mg.DConn (mec d1) u (d2 :: mg.parents d2) := dconn_congr (by intro z; simp [or_comm]) (hb2.1 rfl)
    have h7 := (C07_find_active_path mg h.mwf ord ho (mec d1) u (d2 :: mg.parents d2)).2 (by
      intro x hx
      simp only [List.mem_append, List.mem_cons, List.not_mem_nil, or_false] at hx
      rcases hx with hx | rfl | rfl
      · exact hz x (by simpa using hx)
      · exact hs
      · exact (h.nodes _).2 (Or.inl ha.memu))
    obtain ⟨k1, k2, p, k3, k4⟩ := hD
    obtain ⟨path, hp⟩ := h7.2.1.2 ⟨k2, p, k3, k4, fun hm => absurd hm k1⟩
    exact ⟨path, hp, (h7.1 path hp).1, (h7.1 path hp).2.1⟩

theorem rounds_no_error {pick : Pick} {ord : SetOrder} (ho : ord.Valid) {d1 d2 u : Node} {e : Err} : ∀ {fuel : Nat} {ω : Draws} {mb : Macid} {mg : Graph},
    Mech mb.g mg → Able mb.g d1 d2 u → recallRounds pick ord d1 d2 u fuel ω mb mg ≠ some (.error e)
  | 0, ω, mb, mg, hM, ha => by simp [recallRounds]
  | fuel + 1, ω, mb, mg, hM, ha => by
    unfold recallRounds
    rcases hM.test pick ho ha with h0 | ⟨h0, path, h1, h2⟩
    · rw [h0]
      simp
    · rw [h0, h1]
      simp only
      split
      · simp
      · rename_i e' he
        exact absurd he (h2.pick_no_error hM ha)
      · rename_i v ω1 hv
        obtain ⟨q1, q2, q3, q4, q5⟩ := hM.picked ho ha.mem1 ha.mem2 ha.memu h1 hv
        obtain ⟨e1, e2, e3⟩ := hM.add q1 ha.mem2 q2
        rw [e1, e2]
        exact rounds_no_error ho (mb := { mb with g := mb.g.nxAddEdge v d2 }) e3 (ha.add q1)

theorem rounds_live {pick : Pick} {ord : SetOrder} (ho : ord.Valid) {d1 d2 u : Node} : ∀ (k : Nat) {ω : Draws} {mb : Macid} {mg : Graph},
    Mech mb.g mg → Able mb.g d1 d2 u → mb.g.nodes.length - inDegree mb.g d2 ≤ k →
    ∃ ω2 mb' ω1, ∀ x fuel, (ω ++ ω2 ++ x).length < fuel → recallRounds pick ord d1 d2 u fuel (ω ++ ω2 ++ x) mb mg = some (.ok (mb', ω1 ++ x))
  | k, ω, mb, mg, hM, ha, hk => by
    rcases hM.test pick ho ha with h0 | ⟨h0, path, h1, h2⟩
    · refine ⟨[], mb, ω, fun x fuel hf => ?_⟩
      cases fuel with
      | zero => omega
      | succ fuel =>
        unfold recallRounds
        rw [h0]
        simp
    have next : ∀ {v : Node}, v ∈ mb.g.nodes → ¬ mb.g.DescEq d2 v → ¬ mb.g.Edge v d2 → ∀ ω,
        ∃ ω2 mb' ω1, ∀ x fuel, (ω ++ ω2 ++ x).length < fuel → recallRounds pick ord d1 d2 u fuel (ω ++ ω2 ++ x)
          { mb with g := mb.g.nxAddEdge v d2 } (mg.nxAddEdge v d2) = some (.ok (mb', ω1 ++ x)) := by
      intro v q1 q2 q3 ω
      have hdeg : inDegree (mb.g.nxAddEdge v d2) d2 = inDegree mb.g d2 + 1 := by
        rw [inDegree_add, if_pos ⟨rfl, q3⟩]
      have hle : inDegree (mb.g.nxAddEdge v d2) d2 ≤ mb.g.nodes.length := by
        have hw := wf_nxAddEdge hM.wf q2
        have hn := nxAddEdge_nodes_eq q1 ha.mem2
        unfold inDegree
        rw [← hn]
        exact length_le_of_nodup_subset (nodup_parents hw.edgesNodup d2) (fun x hx => (hw.edgeNodes _ _ (mem_parents.1 hx)).1)
      match k, hk with
      | 0, hk => omega
      | k + 1, hk =>
        have hn := nxAddEdge_nodes_eq q1 ha.mem2
        exact rounds_live ho k (mb := { mb with g := mb.g.nxAddEdge v d2 }) (hM.add q1 ha.mem2 q2).2.2 (ha.add q1) (by
          simp only [hn, hdeg]
          omega)
    have run : ∀ {ω : Draws} {v : Node} {ω' : Draws}, pickNode mg path d2 ω = some (.ok (v, ω')) → ∀ fuel,
        recallRounds pick ord d1 d2 u (fuel + 1) ω mb mg =
          recallRounds pick ord d1 d2 u fuel ω' { mb with g := mb.g.nxAddEdge v d2 } (mg.nxAddEdge v d2) := by
      intro ω v ω' hv fuel
      obtain ⟨q1, q2, q3, q4, q5⟩ := hM.picked ho ha.mem1 ha.mem2 ha.memu h1 hv
      obtain ⟨e1, e2, e3⟩ := hM.add q1 ha.mem2 q2
      conv_lhs => unfold recallRounds
      rw [h0, h1]
      simp only [hv, e1, e2]
    match hv : pickNode mg path d2 ω with
    | some (.error e) => exact absurd hv (h2.pick_no_error hM ha)
    | some (.ok (v, ω')) =>
      obtain ⟨q1, q2, q3, q4, q5⟩ := hM.picked ho ha.mem1 ha.mem2 ha.memu h1 hv
      obtain ⟨ω2, mb', ω1, hr⟩ := next q1 q2 q3 ω'
      refine ⟨ω2, mb', ω1, fun x fuel hf => ?_⟩
      cases fuel with
      | zero => omega
      | succ fuel =>
        rw [List.append_assoc, run (pick_some hv), ← List.append_assoc]
        apply hr
        simp only [List.length_append] at hf ⊢
        omega
    | none =>
      obtain ⟨r, v, hg⟩ := h2.good hM ha
      obtain ⟨q1, q2, q3, q4, q5⟩ := hM.picked ho ha.mem1 ha.mem2 ha.memu h1 (hg [])
      obtain ⟨ω2, mb', ω1, hr⟩ := next q1 q2 q3 []
      refine ⟨r :: ω2, mb', ω1, fun x fuel hf => ?_⟩
      cases fuel with
      | zero => omega
      | succ fuel =>
        have : pickNode mg path d2 (ω ++ (r :: ω2) ++ x) = some (.ok (v, ω2 ++ x)) := by
          rw [List.append_assoc, pick_none hv, List.cons_append, hg]
        rw [run this]
        have := hr x fuel (by
          simp only [List.length_append, List.length_cons, List.nil_append] at hf ⊢
          omega)
        simpa using this

end Random
end Verif

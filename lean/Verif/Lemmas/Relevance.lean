import Verif.Lemmas.Roles
import Mathlib.Data.Fintype.EquivFin

/-! r-reachability, relevance graphs, sufficient recall. -/

namespace Verif
open Relation Graph Macid

theorem anyM_spec {α : Type} {f : α → Py Bool} {P : α → Prop} {xs : List α}
    (h : ∀ x ∈ xs, ∃ b, f x = .ok b ∧ (b = true ↔ P x)) :
    ∃ b, anyM f xs = .ok b ∧ (b = true ↔ ∃ x ∈ xs, P x) := by
  induction xs with
  | nil => exact ⟨false, rfl, by simp⟩
  | cons x xs ih =>
    obtain ⟨b, h1, h2⟩ := h x (by simp)
    obtain ⟨b', h3, h4⟩ := ih (fun y hy => h y (by simp [hy]))
    unfold anyM
    rw [h1]
    cases b with
    | true => exact ⟨true, rfl, by simp [h2.1 rfl]⟩
    | false =>
      refine ⟨b', h3, ?_⟩
      have : ¬ P x := fun hp => by simpa using h2.2 hp
      simp [h4, this]

theorem active_congr {g : Graph} {Z Z' p : List Node} (hz : ∀ z, z ∈ Z ↔ z ∈ Z')
    (h : g.Active Z p) : g.Active Z' p := by
  intro l a b c r hp
  obtain ⟨h1, h2⟩ := h l a b c r hp
  refine ⟨fun hc => ?_, fun hc hb => h2 hc ((hz _).2 hb)⟩
  obtain ⟨z, hz1, hz2⟩ := h1 hc
  exact ⟨z, (hz _).1 hz1, hz2⟩

theorem dconn_congr {g : Graph} {Z Z' : List Node} {s t : Node} (hz : ∀ z, z ∈ Z ↔ z ∈ Z')
    (h : g.DConn s t Z) : g.DConn s t Z' := by
  obtain ⟨h1, h2, p, hp, ha⟩ := h
  exact ⟨fun h => h1 ((hz _).2 h), fun h => h2 ((hz _).2 h), p, hp, active_congr hz ha⟩

theorem exists_fresh (l : List Node) : ∃ n, n ∉ l := by
  obtain ⟨n, hn⟩ := Infinite.exists_notMem_finset (α := String) l.toFinset
  exact ⟨n, by simpa using hn⟩

namespace Macid

theorem mem_family {g : Graph} {d z : Node} : z ∈ d :: g.parents d ↔ z = d ∨ g.Edge z d := by
  simp [mem_parents]

/-- r-reachability in terms of the original graph only. -/
theorem rreach_iff {m : Macid} (hw : m.g.WF) {d v : Node} (hv : v ∈ m.g.nodes) :
    m.RReach d v ↔ ∃ a u, m.role d = .decision a ∧ m.role u = .utility a ∧ m.g.Desc d u ∧
      Into m.g (d :: m.g.parents d) v u := by
  have hzn : ∀ d u, m.g.Desc d u → (∀ z ∈ d :: m.g.parents d, z ∈ m.g.nodes) ∧ u ∈ m.g.nodes := by
    intro d u h
    have hd : d ∈ m.g.nodes := by
      obtain ⟨c, hc, _⟩ := TransGen.head'_iff.1 h
      exact (hw.edgeNodes _ _ hc).1
    refine ⟨?_, descEq_mem hw h.to_reflTransGen hd⟩
    intro z hz
    rcases mem_family.1 hz with rfl | h'
    · exact hd
    · exact (hw.edgeNodes _ _ h').1
  unfold RReach
  constructor
  · rintro ⟨a, u, h1, h2, h3, Z, n, hZ, hn, hc⟩
    refine ⟨a, u, h1, h2, h3, ?_⟩
    have hc' := dconn_congr (Z' := d :: m.g.parents d) (fun z => by rw [hZ, mem_family]) hc
    exact ((sourceExt_withParent hn hv).dconn_iff hw ⟨rfl, rfl⟩ (hzn d u h3).2 (hzn d u h3).1).1 hc'
  · rintro ⟨a, u, h1, h2, h3, h4⟩
    obtain ⟨n, hn⟩ := exists_fresh m.g.nodes
    refine ⟨a, u, h1, h2, h3, d :: m.g.parents d, n, fun z => mem_family, hn, ?_⟩
    exact ((sourceExt_withParent hn hv).dconn_iff hw ⟨rfl, rfl⟩ (hzn d u h3).2 (hzn d u h3).1).2 h4

theorem isRReachable_spec {m : Macid} (hc : m.Consistent) (hm : MecFree m.g) (pick : Pick)
    {ds ns : List Node} (hd : ∀ d ∈ ds, m.Playable d) (hn : ∀ n ∈ ns, n ∈ m.g.nodes) :
    ∃ b, isRReachable pick m ds ns = .ok b ∧ (b = true ↔ ∃ d ∈ ds, ∃ n ∈ ns, m.RReach d n) := by
  obtain ⟨mg, h1, h2, h3, h4⟩ := mechGraph_spec hc.wf hm
  unfold isRReachable
  rw [h1]
  apply anyM_spec
  intro d hdd
  apply anyM_spec
  intro n hnn
  obtain ⟨a, hr, ha⟩ := hd d hdd
  have hda := role_decision.1 hr
  have hdn : d ∈ m.g.nodes := hc.nodes d (Or.inl (Dict.mem_keys.2 ⟨a, hda⟩))
  obtain ⟨us, hus⟩ := Dict.mem_keys.1 ha
  have hnn' := hn n hnn
  have hx := sourceExt_mech hm h3
  unfold rReachPair
  simp only [hdn, not_true_eq_false, if_false, Dict.get_ok.2 hda, Dict.get_ok.2 hus]
  unfold rReachUtil
  have hZmg : ∀ z ∈ d :: m.g.parents d, z ∈ m.g.nodes := by
    intro z hz
    rcases mem_family.1 hz with rfl | h'
    · exact hdn
    · exact (hc.wf.edgeNodes _ _ h').1
  obtain ⟨b, hb1, hb2⟩ := anyM_spec
    (f := fun u => isDConnected pick mg (mec n) u (d :: m.g.parents d))
    (P := fun u => mg.DConn (mec n) u (d :: m.g.parents d))
    (xs := us.dedup.filter (fun u => decide (u ∈ m.g.descendants d)))
    (fun u _ => isDConnected_spec h2 pick ((h4 _).2 (Or.inr ⟨n, hnn', rfl⟩))
      (fun z hz => (h4 _).2 (Or.inl (hZmg z hz))))
  refine ⟨b, hb1, hb2.trans ?_⟩
  rw [rreach_iff hc.wf hnn']
  have hun : ∀ u, u ∈ m.g.descendants d → u ∈ m.g.nodes := by
    intro u hu
    exact descEq_mem hc.wf ((mem_descendants hc.wf).1 hu).to_reflTransGen hdn
  constructor
  · rintro ⟨u, hu, hdc⟩
    simp only [List.mem_filter, List.mem_dedup, decide_eq_true_eq] at hu
    refine ⟨a, u, hr, ?_, (mem_descendants hc.wf).1 hu.2, ?_⟩
    · exact (role_utility hc).2 ((hc.util.iff u a).2 ⟨us, hus, hu.1⟩)
    · exact (hx.dconn_iff hc.wf ⟨hnn', rfl⟩ (hun u hu.2) hZmg).1 hdc
  · rintro ⟨a', u, hr', hu, hdu, hi⟩
    have : a' = a := by rw [hr] at hr'; cases hr'; rfl
    subst this
    obtain ⟨us', hus', hm'⟩ := (hc.util.iff u a').1 ((role_utility hc).1 hu)
    have : us' = us := by rw [hus] at hus'; cases hus'; rfl
    subst this
    have hud : u ∈ m.g.descendants d := (mem_descendants hc.wf).2 hdu
    refine ⟨u, ?_, (hx.dconn_iff hc.wf ⟨hnn', rfl⟩ (hun u hud) hZmg).2 hi⟩
    simp only [List.mem_filter, List.mem_dedup, decide_eq_true_eq]
    exact ⟨hm', hud⟩

theorem mem_perms2 {l : List Node} (hn : l.Nodup) {a b : Node} :
    (a, b) ∈ perms2 l ↔ a ∈ l ∧ b ∈ l ∧ a ≠ b := by
  unfold perms2
  simp only [List.mem_flatMap, List.mem_map, List.mem_filter, Prod.mk.injEq, decide_eq_true_eq,
    Prod.exists, List.mk_mem_zipIdx_iff_getElem?]
  constructor
  · rintro ⟨x, i, hi, y, j, ⟨hj, hne⟩, rfl, rfl⟩
    refine ⟨List.mem_of_getElem? hi, List.mem_of_getElem? hj, ?_⟩
    rintro rfl
    obtain ⟨hi1, hi2⟩ := List.getElem?_eq_some_iff.1 hi
    obtain ⟨hj1, hj2⟩ := List.getElem?_eq_some_iff.1 hj
    exact hne ((List.Nodup.getElem_inj_iff hn).1 (hj2.trans hi2.symm))
  · rintro ⟨ha, hb, hab⟩
    obtain ⟨i, hi⟩ := List.mem_iff_getElem?.1 ha
    obtain ⟨j, hj⟩ := List.mem_iff_getElem?.1 hb
    refine ⟨a, i, hi, b, j, ⟨hj, ?_⟩, rfl, rfl⟩
    rintro rfl
    rw [hi] at hj
    exact hab (by simpa using hj)

theorem isSReachable_spec {m : Macid} (hc : m.Consistent) (hm : MecFree m.g) (pick : Pick)
    {ds : List Node} {v : Node} (hd : ∀ d ∈ ds, m.Playable d) (hv : ∃ a, m.role v = .decision a) :
    ∃ b, isSReachable pick m ds v = .ok b ∧ (b = true ↔ ∃ d ∈ ds, m.RReach d v) := by
  obtain ⟨a, ha⟩ := hv
  have hvd : v ∈ m.decisions := Dict.mem_keys.2 ⟨a, role_decision.1 ha⟩
  obtain ⟨b, h1, h2⟩ := isRReachable_spec hc hm pick hd (ns := [v])
    (by simpa using hc.nodes v (Or.inl hvd))
  refine ⟨b, ?_, by simpa using h2⟩
  unfold isSReachable
  simpa [hvd] using h1

theorem relevanceLoop_spec {m : Macid} (hc : m.Consistent) (hm : MecFree m.g) (pick : Pick)
    (ps : List (Node × Node)) {rg : Graph} (hps : ∀ p ∈ ps, m.Playable p.1 ∧ m.Playable p.2 ∧
      p.1 ∈ rg.nodes ∧ p.2 ∈ rg.nodes) (hed : rg.edges.Nodup) :
    ∃ rg', relevanceLoop pick m rg ps = .ok rg' ∧ rg'.nodes = rg.nodes ∧ rg'.edges.Nodup ∧
      ∀ a b, rg'.Edge a b ↔ rg.Edge a b ∨ ((a, b) ∈ ps ∧ m.RReach a b) := by
  induction ps generalizing rg with
  | nil => exact ⟨rg, rfl, rfl, hed, by simp⟩
  | cons p ps ih =>
    obtain ⟨x, y⟩ := p
    obtain ⟨px, py, nx, ny⟩ := hps (x, y) (by simp)
    obtain ⟨b, h1, h2⟩ := isSReachable_spec hc hm pick (ds := [x]) (v := y) (by simpa using px)
      ⟨_, py.choose_spec.1⟩
    simp only [List.mem_singleton, exists_eq_left] at h2
    unfold relevanceLoop
    rw [h1]
    simp only
    by_cases hb : b = true
    · subst hb
      have hn' : (rg.nxAddEdge x y).nodes = rg.nodes := by
        simp only at nx ny
        unfold nxAddEdge
        simp only [addNode, nx, ny, if_true]
        split <;> rfl
      have he' : (rg.nxAddEdge x y).edges.Nodup := by
        simp only at nx ny
        unfold nxAddEdge
        simp only [addNode, nx, ny, if_true]
        split
        · exact hed
        · rename_i h
          simp only
          rw [List.nodup_append]
          refine ⟨hed, by simp, ?_⟩
          intro a ha b hb
          simp only [List.mem_singleton] at hb
          subst hb
          rintro rfl
          exact h ha
      obtain ⟨rg', i1, i2, i3, i4⟩ := ih (rg := rg.nxAddEdge x y)
        (by intro p hp; rw [hn']; exact hps p (by simp [hp])) he'
      refine ⟨rg', by simpa using i1, i2.trans hn', i3, ?_⟩
      intro a b
      rw [i4, nxAddEdge_edge]
      have := h2.1 rfl
      simp only [List.mem_cons, Prod.mk.injEq]
      constructor
      · rintro ((h | ⟨rfl, rfl⟩) | h)
        · exact Or.inl h
        · exact Or.inr ⟨Or.inl ⟨rfl, rfl⟩, this⟩
        · exact Or.inr ⟨Or.inr h.1, h.2⟩
      · rintro (h | ⟨h | h, h'⟩)
        · exact Or.inl (Or.inl h)
        · exact Or.inl (Or.inr h)
        · exact Or.inr ⟨h, h'⟩
    · obtain ⟨rg', i1, i2, i3, i4⟩ := ih (rg := rg)
        (by intro p hp; exact hps p (by simp [hp])) hed
      refine ⟨rg', by simpa [hb] using i1, i2, i3, ?_⟩
      intro a b'
      rw [i4]
      simp only [List.mem_cons, Prod.mk.injEq]
      constructor
      · rintro (h | h)
        · exact Or.inl h
        · exact Or.inr ⟨Or.inr h.1, h.2⟩
      · rintro (h | ⟨⟨rfl, rfl⟩ | h, h'⟩)
        · exact Or.inl h
        · exact absurd (h2.2 h') hb
        · exact Or.inr ⟨h, h'⟩

theorem relevanceGraph_spec {m : Macid} (hc : m.Consistent) (hm : MecFree m.g) (pick : Pick)
    {ds : List Node} (hn : ds.Nodup) (hd : ∀ d ∈ ds, m.Playable d) :
    ∃ rg, relevanceGraph pick m ds = .ok rg ∧ rg.nodes = ds ∧ rg.edges.Nodup ∧
      ∀ a b, rg.Edge a b ↔ a ∈ ds ∧ b ∈ ds ∧ a ≠ b ∧ m.RReach a b := by
  obtain ⟨hnodes, hedges⟩ := addNodes_nodes ds Graph.empty (by simp [empty]) hn
  have hnodes' : (Graph.empty.addNodes ds).nodes = ds := by rw [hnodes]; simp [empty]
  have hedges' : (Graph.empty.addNodes ds).edges = [] := by rw [hedges]; simp [empty]
  obtain ⟨rg, h1, h2, h3, h4⟩ := relevanceLoop_spec hc hm pick (perms2 ds)
    (rg := Graph.empty.addNodes ds)
    (by
      rintro ⟨a, b⟩ hp
      obtain ⟨ha, hb, _⟩ := (mem_perms2 hn).1 hp
      rw [hnodes']
      exact ⟨hd a ha, hd b hb, ha, hb⟩) (by rw [hedges']; simp)
  refine ⟨rg, h1, h2.trans hnodes', h3, ?_⟩
  intro a b
  rw [h4, mem_perms2 hn]
  have : ¬ (Graph.empty.addNodes ds).Edge a b := by
    unfold Edge; rw [hedges']; simp
  tauto

theorem relevance_dag {m : Macid} {ds : List Node} {rg : Graph} (tpick : List Node → Nat)
    (hn : ds.Nodup) (h2 : rg.nodes = ds) (h3 : rg.edges.Nodup)
    (h4 : ∀ a b, rg.Edge a b ↔ a ∈ ds ∧ b ∈ ds ∧ a ≠ b ∧ m.RReach a b) :
    isDag tpick rg.nodes rg.edges = true ↔ m.NoRelianceCycle ds := by
  rw [isDag_iff tpick (by rw [h2]; exact hn) h3]
  · unfold NoRelianceCycle
    have : (fun x y => (x, y) ∈ rg.edges) = (fun a b => a ∈ ds ∧ b ∈ ds ∧ a ≠ b ∧ m.RReach a b) := by
      funext a b; exact propext (h4 a b)
    rw [this]
  · rintro ⟨a, b⟩ he
    rw [h2]
    have := (h4 a b).1 he
    exact ⟨this.1, this.2.1⟩

theorem playable_of_mem {m : Macid} (hc : m.Consistent) {a : Agent} {ds : List Node}
    (ha : a ∈ m.agents) (h : m.agentDecisions.get? a = some ds) :
    ds.Nodup ∧ ∀ d ∈ ds, m.Playable d := by
  refine ⟨hc.dec.nodup _ _ h, ?_⟩
  intro d hd
  exact ⟨a, role_decision.2 ((hc.dec.iff d a).2 ⟨ds, h, hd⟩), ha⟩

theorem recallLoop_spec {m : Macid} (hc : m.Consistent) (hm : MecFree m.g) (pick : Pick)
    (tpick : List Node → Nat) (as : List Agent) (ha : ∀ a ∈ as, a ∈ m.agents)
    (hd : ∀ a ∈ as, a ∈ m.agentDecisions.keys) :
    ∃ b, recallLoop pick tpick m as = .ok b ∧ (b = true ↔
      ∀ a ∈ as, ∀ ds, m.agentDecisions.get? a = some ds → m.NoRelianceCycle ds) := by
  induction as with
  | nil => exact ⟨true, rfl, by simp⟩
  | cons a as ih =>
    obtain ⟨b, i1, i2⟩ := ih (fun x hx => ha x (by simp [hx])) (fun x hx => hd x (by simp [hx]))
    obtain ⟨ds, hds⟩ := Dict.mem_keys.1 (hd a (by simp))
    obtain ⟨hn, hp⟩ := playable_of_mem hc (ha a (by simp)) hds
    obtain ⟨rg, h1, h2, h3, h4⟩ := relevanceGraph_spec hc hm pick hn hp
    have hdag := relevance_dag tpick hn h2 h3 h4
    unfold recallLoop
    simp only [Dict.get_ok.2 hds, h1]
    by_cases hb : isDag tpick rg.nodes rg.edges = true
    · refine ⟨b, by simpa [hb] using i1, i2.trans ?_⟩
      constructor
      · intro h x hx ds' hds'
        rcases List.mem_cons.1 hx with rfl | hx
        · rw [hds] at hds'; cases hds'; exact hdag.1 hb
        · exact h x hx ds' hds'
      · intro h x hx; exact h x (by simp [hx])
    · refine ⟨false, by simp [hb], ?_⟩
      simp only [Bool.false_eq_true, false_iff]
      intro h
      exact hb (hdag.2 (h a (by simp) ds hds))

/-! ### C22 -/

theorem into_desc {g : Graph} {Z : List Node} {v u : Node} (h : Into g Z v u)
    (hz : ¬ ∃ z ∈ Z, g.DescEq v z) : g.DescEq v u := by
  obtain ⟨_, r, ⟨h1, h2, h3, h4⟩, ha, _, hcons⟩ := h
  cases r with
  | nil => simp at h2; subst h2; exact ReflTransGen.refl
  | cons c r' =>
    rw [List.isChain_cons_cons] at h3
    rcases h3.1 with hvc | hcv
    · rcases out_walk (g := g) (Z := Z) (by rw [List.isChain_cons_cons]; exact h3) ha hvc h2 with h | h
      · exact h.to_reflTransGen
      · exact absurd h hz
    · exact absurd ((hcons c r' rfl).1 hcv) hz

theorem into_of_desc {g : Graph} (hw : g.WF) {Z : List Node} {v u : Node}
    (h : g.DescEq v u) (hz : ∀ z ∈ Z, ¬ g.DescEq v z) : Into g Z v u := by
  obtain ⟨p, hp, hl, _, _⟩ := reach_bounded (nodes := g.nodes) (R := g.Edge) hw.edgeNodes h
  have hnd : (v :: p).Nodup := nodup_of_chain_irrefl hw.acyclic hp
  have hdesc : ∀ x ∈ v :: p, g.DescEq v x := by
    intro x hx
    obtain ⟨l, r, hlr⟩ := List.append_of_mem hx
    cases l with
    | nil => simp at hlr; rw [hlr.1]; exact ReflTransGen.refl
    | cons y l =>
      simp at hlr
      obtain ⟨rfl, rfl⟩ := hlr
      have hch : (v :: l ++ [x]).IsChain g.Edge := by
        have : v :: (l ++ x :: r) = (v :: l ++ [x]) ++ r := by simp
        rw [this, List.isChain_append] at hp
        exact hp.1
      exact List.relationReflTransGen_of_exists_isChain_cons (l ++ [x]) hch (by simp)
  have hnz : ∀ x ∈ v :: p, x ∉ Z := fun x hx hxz => hz x hxz (hdesc x hx)
  refine ⟨fun hu => hz u hu h, p, ⟨rfl, hl, hp.imp (fun a b hab => Or.inl hab), hnd⟩, ?_, ?_, ?_⟩
  · intro l a b c r he
    have hbc : g.Edge b c := by
      rw [he, List.isChain_append] at hp
      exact (List.isChain_cons_cons.1 (List.isChain_cons_cons.1 hp.2.1).2).1
    refine ⟨fun hc => absurd (TransGen.tail (TransGen.single hc.2) hbc) (hw.acyclic c), fun _ => ?_⟩
    exact hnz b (by rw [he]; simp)
  · intro _; exact hnz v (by simp)
  · intro c r' he
    have hvc : g.Edge v c := by
      rw [he] at hp; exact (List.isChain_cons_cons.1 hp).1
    exact ⟨fun hcv => absurd (TransGen.tail (TransGen.single hcv) hvc) (hw.acyclic c),
      fun _ => hnz v (by simp)⟩

/-- For two decisions of one agent: if the later one relies on the earlier one, then also the other
way round. -/
theorem rreach_symm {m : Macid} (hc : m.Consistent) {a : Agent} {d1 d2 : Node}
    (h1 : m.role d1 = .decision a) (h2 : m.role d2 = .decision a) (hne : d1 ≠ d2)
    (hnd : ¬ m.g.Desc d2 d1) (hr : m.RReach d2 d1) : m.RReach d1 d2 := by
  have hn1 : d1 ∈ m.g.nodes := hc.nodes d1 (Or.inl (Dict.mem_keys.2 ⟨a, role_decision.1 h1⟩))
  have hn2 : d2 ∈ m.g.nodes := hc.nodes d2 (Or.inl (Dict.mem_keys.2 ⟨a, role_decision.1 h2⟩))
  obtain ⟨a', u, e1, e2, e3, e4⟩ := (rreach_iff hc.wf hn1).1 hr
  have : a' = a := by rw [h2] at e1; cases e1; rfl
  subst this
  rw [rreach_iff hc.wf hn2]
  have hnd' : ¬ m.g.DescEq d2 d1 := by
    intro h
    rcases reflTransGen_iff_eq_or_transGen.1 h with h | h
    · exact hne h
    · exact hnd h
  have hdu : m.g.Desc d1 u := by
    have hd : m.g.DescEq d1 u := by
      by_cases hz : ∃ z ∈ d2 :: m.g.parents d2, m.g.DescEq d1 z
      · obtain ⟨z, hz, hd⟩ := hz
        rcases mem_family.1 hz with rfl | h
        · exact hd.trans e3.to_reflTransGen
        · exact (hd.tail h).trans e3.to_reflTransGen
      · exact into_desc e4 hz
    rcases reflTransGen_iff_eq_or_transGen.1 hd with h | h
    · subst h
      rw [h1] at e2; cases e2
    · exact h
  refine ⟨a', u, h1, e2, hdu, into_of_desc hc.wf e3.to_reflTransGen ?_⟩
  intro z hz hd
  rcases mem_family.1 hz with rfl | h
  · exact hnd' hd
  · exact hnd' (hd.tail h)

end Macid
end Verif

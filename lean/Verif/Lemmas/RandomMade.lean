import Verif.Lemmas.RandomGame
import Verif.Props.RandomRecall

/-!
# Random games: what is made
-/

namespace Verif
namespace Random

open Relation Macid

/-- every node of a connected graph with two nodes has a neighbour -/
theorem has_neighbour {g : Graph} (hn : g.nodes.Nodup) (h2 : 2 ≤ g.nodes.length) (hj : ∀ u ∈ g.nodes, ∀ v ∈ g.nodes, ReflTransGen g.Adj u v) :
    ∀ v ∈ g.nodes, ∃ c, g.Adj v c := by
  intro v hv
  obtain ⟨w, hw, hne⟩ : ∃ w ∈ g.nodes, w ≠ v := by
    by_contra hc
    push Not at hc
    have := length_le_of_nodup_subset (l₂ := [v]) hn (fun x hx => by simp [hc x hx])
    simp at this
    omega
  rcases ReflTransGen.cases_head (hj v hv w hw) with e | ⟨c, hc, _⟩
  · exact absurd e.symm hne
  · exact ⟨c, hc⟩

/-- all the renamings -/
def allNames (g : Graph) (l : List (List Node × List Node)) : Dict Node Node :=
  entries 0 l ++ renames chanceName (g.nodes.filter (fun v => decide (v ∉ (entries 0 l).map (·.1))))

theorem Chosen.mem {g : Graph} (hw : g.WF) {l : List (List Node × List Node)} (h : Chosen g l) {v : Node} (hv : v ∈ chosen l) : v ∈ g.nodes := by
  unfold chosen at hv
  obtain ⟨p, hp, hv⟩ := List.mem_flatMap.1 hv
  rcases List.mem_append.1 hv with hv | hv
  · exact (h.barren p hp v hv).1
  · obtain ⟨u, _, hd⟩ := h.desc p hp v hv
    obtain ⟨c, hc⟩ := Desc.child hd
    exact (hw.edgeNodes _ _ hc).1

theorem keys_all (g : Graph) (l : List (List Node × List Node)) :
    (allNames g l).map (·.1) = chosen l ++ g.nodes.filter (fun v => decide (v ∉ chosen l)) := by
  unfold allNames
  rw [List.map_append, keys_renames, keys_entries]

theorem nodup_all {g : Graph} (hw : g.WF) {l : List (List Node × List Node)} (h : Chosen g l) : ((allNames g l).map (·.1)).Nodup := by
  rw [keys_all]
  refine List.nodup_append.2 ⟨h.nodup, hw.nodesNodup.filter _, ?_⟩
  rintro x hx y hy rfl
  simp only [List.mem_filter, decide_eq_true_eq] at hy
  exact hy.2 hx

theorem mem_all {g : Graph} {l : List (List Node × List Node)} {v : Node} (hv : v ∈ g.nodes) : v ∈ (allNames g l).map (·.1) := by
  rw [keys_all]
  by_cases hc : v ∈ chosen l
  · exact List.mem_append_left _ hc
  · exact List.mem_append_right _ (by simp [hv, hc])

theorem nodup_allVals (g : Graph) (l : List (List Node × List Node)) : ((allNames g l).map (·.2)).Nodup := by
  unfold allNames
  rw [List.map_append, vals_renames]
  refine List.nodup_append.2 ⟨nodup_vals 0 l, List.nodup_range.map (fun i j e => chance_inj e), ?_⟩
  rintro x hx y hy rfl
  obtain ⟨b, i, _, h⟩ := vals_entries 0 l x hx
  obtain ⟨j, _, e⟩ := List.mem_map.1 hy
  rcases h with rfl | rfl
  · exact util_ne_chance e.symm
  · exact dec_ne_chance e.symm

/-- the new name of a node -/
def newName (g : Graph) (l : List (List Node × List Node)) (v : Node) : Node := (Dict.get? (allNames g l) v).getD v

theorem newName_of {g : Graph} (hw : g.WF) {l : List (List Node × List Node)} (h : Chosen g l) {v x : Node} (hm : (v, x) ∈ allNames g l) :
    newName g l v = x := by
  unfold newName
  rw [Dict.get?_of_mem (nodup_all hw h) hm]
  rfl

theorem newName_mem {g : Graph} (hw : g.WF) {l : List (List Node × List Node)} (h : Chosen g l) {v : Node} (hv : v ∈ g.nodes) :
    (v, newName g l v) ∈ allNames g l := by
  obtain ⟨⟨v', x⟩, hm, rfl⟩ := List.mem_map.1 (mem_all (l := l) hv)
  rw [newName_of hw h hm]
  exact hm

theorem newName_inj {g : Graph} (hw : g.WF) {l : List (List Node × List Node)} (h : Chosen g l) :
    ∀ u ∈ g.nodes, ∀ v ∈ g.nodes, newName g l u = newName g l v → u = v := by
  intro u hu v hv e
  have h1 := newName_mem hw h hu
  have h2 := newName_mem hw h hv
  have := List.inj_on_of_nodup_map (nodup_allVals g l) h1 h2 e
  exact congrArg Prod.fst this

theorem newName_given {g : Graph} (hw : g.WF) {l : List (List Node × List Node)} (h : Chosen g l) {v : Node} (hv : v ∈ g.nodes) :
    (v ∈ chosen l ∧ ∃ b i, newName g l v = utilName b i ∨ newName g l v = decName b i) ∨ (v ∉ chosen l ∧ ∃ i, newName g l v = chanceName i) := by
  have h1 := newName_mem hw h hv
  unfold allNames at h1
  rcases List.mem_append.1 h1 with h1 | h1
  · left
    refine ⟨?_, ?_⟩
    · rw [← keys_entries 0 l]
      exact List.mem_map.2 ⟨_, h1, rfl⟩
    · obtain ⟨b, i, _, h2⟩ := vals_entries 0 l (newName g l v) (List.mem_map.2 ⟨_, h1, rfl⟩)
      exact ⟨b, i, h2⟩
  · right
    have hk : v ∈ (renames chanceName (g.nodes.filter (fun v => decide (v ∉ (entries 0 l).map (·.1))))).map (·.1) := List.mem_map.2 ⟨_, h1, rfl⟩
    rw [keys_renames] at hk
    have hx : newName g l v ∈ (renames chanceName (g.nodes.filter (fun v => decide (v ∉ (entries 0 l).map (·.1))))).map (·.2) :=
      List.mem_map.2 ⟨_, h1, rfl⟩
    rw [vals_renames] at hx
    obtain ⟨i, _, e⟩ := List.mem_map.1 hx
    simp only [List.mem_filter, decide_eq_true_eq, keys_entries] at hk
    exact ⟨hk.2, i, e.symm⟩

/-- the game that is made from a random graph and the choice of roles -/
theorem made {g : Graph} (hw : g.WF) (h2 : 2 ≤ g.nodes.length) (hj : ∀ u ∈ g.nodes, ∀ v ∈ g.nodes, ReflTransGen g.Adj u v)
    {l : List (List Node × List Node)} (h : Chosen g l) {w : Wanted} (hn : w.nodes = g.nodes.length) (hd : w.decs = l.map (fun p => p.2.length))
    (hu : w.utils = l.map (fun p => p.1.length)) :
    ∃ mb, Macid.init (relabel g (allNames g l)).edgesView (rolesOf decName (·.2) 0 l) (rolesOf utilName (·.1) 0 l) = .ok mb ∧
      IsRandomGame w mb ∧ (∀ v ∈ mb.g.nodes, Given v) ∧ Renamed (newName g l) g mb.g := by
  obtain ⟨G, hG, hR⟩ := ofEdges_renamed hw (newName_inj hw h) (has_neighbour hw.nodesNodup h2 hj) (fun x y => relabel_edges hw (names := allNames g l))
  have hinit : Macid.init (relabel g (allNames g l)).edgesView (rolesOf decName (·.2) 0 l) (rolesOf utilName (·.1) 0 l) =
      .ok ⟨G, rolesOf decName (·.2) 0 l, rolesOf utilName (·.1) 0 l, invert (rolesOf decName (·.2) 0 l), invert (rolesOf utilName (·.1) 0 l)⟩ := by
    unfold Macid.init
    rw [hG]
  refine ⟨_, hinit, ?_, ?_, hR⟩
  swap
  · intro x hx
    obtain ⟨v, hv, rfl⟩ := (hR.nodes x).1 hx
    rcases newName_given hw h hv with ⟨_, b, i, e | e⟩ | ⟨_, i, e⟩
    · exact Or.inl ⟨b, i, e⟩
    · exact Or.inr (Or.inl ⟨b, i, e⟩)
    · exact Or.inr (Or.inr ⟨i, e⟩)
  have hdec : ∀ {b p i v}, l[b]? = some p → p.2[i]? = some v → newName g l v = decName b i := by
    intro b p i v hb hv
    have := entry_dec (a := 0) hb hv
    rw [Nat.zero_add] at this
    exact newName_of hw h (List.mem_append_left _ this)
  have hutil : ∀ {b p i v}, l[b]? = some p → p.1[i]? = some v → newName g l v = utilName b i := by
    intro b p i v hb hv
    have := entry_util (a := 0) hb hv
    rw [Nat.zero_add] at this
    exact newName_of hw h (List.mem_append_left _ this)
  have memOf : ∀ {b p}, l[b]? = some p → p ∈ l := fun hb => List.mem_of_getElem? hb
  have hcons : Consistent ⟨G, rolesOf decName (·.2) 0 l, rolesOf utilName (·.1) 0 l, invert (rolesOf decName (·.2) 0 l), invert (rolesOf utilName (·.1) 0 l)⟩ := by
    refine C15_constructor_consistent _ _ _ _ hinit ?_ ?_ ?_ ?_
    · rw [keys_roles]; exact List.nodup_range'
    · rw [keys_roles]; exact List.nodup_range'
    · refine List.nodup_append.2 ⟨nodup_roles dec_inj, nodup_roles util_inj, ?_⟩
      rintro x hx y hy rfl
      obtain ⟨b, p, _, i, _, e⟩ := mem_roles.1 hx
      obtain ⟨b', p', _, i', _, e'⟩ := mem_roles.1 hy
      exact util_ne_dec (e'.symm.trans e)
    · intro x hx
      rcases List.mem_append.1 hx with hx | hx
      · obtain ⟨b, p, hb, i, hi, rfl⟩ := mem_roles.1 hx
        have hv := List.getElem?_eq_getElem hi
        rw [Nat.zero_add, ← hdec hb hv]
        refine (hR.nodes _).2 ⟨_, h.mem hw ?_, rfl⟩
        exact List.mem_flatMap.2 ⟨p, memOf hb, List.mem_append_right _ (List.getElem_mem hi)⟩
      · obtain ⟨b, p, hb, i, hi, rfl⟩ := mem_roles.1 hx
        have hv := List.getElem?_eq_getElem hi
        rw [Nat.zero_add, ← hutil hb hv]
        refine (hR.nodes _).2 ⟨_, h.mem hw ?_, rfl⟩
        exact List.mem_flatMap.2 ⟨p, memOf hb, List.mem_append_left _ (List.getElem_mem hi)⟩
  have hroleD := fun n a => (C15_lists_show_roles _ hcons n a).1
  have hroleU := fun n a => (C15_lists_show_roles _ hcons n a).2.1
  -- the entry of an agent
  have entry : ∀ {name : Nat → Nat → Node} {sel : List Node × List Node → List Node} {a : Nat} {xs : List Node},
      (rolesOf name sel 0 l).get? a = some xs → ∃ p, l[a]? = some p ∧ xs = (List.range (sel p).length).map (name a) := by
    intro name sel a xs hx
    have hk : a ∈ (rolesOf name sel 0 l).keys := Dict.mem_keys.2 ⟨_, hx⟩
    have ha := (keys_lt hk).2
    rw [Nat.zero_add] at ha
    have hp := List.getElem?_eq_getElem ha
    have := get_roles (name := name) (sel := sel) (a := 0) hp
    rw [Nat.zero_add, hx] at this
    exact ⟨_, hp, Option.some.inj this⟩
  have oneD : ∀ {a p v}, l[a]? = some p → v ∈ p.2 → Macid.role ⟨G, rolesOf decName (·.2) 0 l, rolesOf utilName (·.1) 0 l,
      invert (rolesOf decName (·.2) 0 l), invert (rolesOf utilName (·.1) 0 l)⟩ (newName g l v) = .decision a := by
    intro a p v hp hv
    obtain ⟨i, hi, e⟩ := List.getElem_of_mem hv
    rw [hdec hp (List.getElem?_eq_some_iff.2 ⟨hi, e⟩)]
    have := get_roles (name := decName) (sel := (·.2)) (a := 0) hp
    rw [Nat.zero_add] at this
    refine (hroleD _ _).2 ⟨_, this, ?_⟩
    exact List.count_eq_one_of_mem (List.nodup_range.map (fun i j e => (dec_inj e).2)) (List.mem_map.2 ⟨i, by simpa using hi, rfl⟩)
  have oneU : ∀ {a p v}, l[a]? = some p → v ∈ p.1 → Macid.role ⟨G, rolesOf decName (·.2) 0 l, rolesOf utilName (·.1) 0 l,
      invert (rolesOf decName (·.2) 0 l), invert (rolesOf utilName (·.1) 0 l)⟩ (newName g l v) = .utility a := by
    intro a p v hp hv
    obtain ⟨i, hi, e⟩ := List.getElem_of_mem hv
    rw [hutil hp (List.getElem?_eq_some_iff.2 ⟨hi, e⟩)]
    have := get_roles (name := utilName) (sel := (·.1)) (a := 0) hp
    rw [Nat.zero_add] at this
    refine (hroleU _ _).2 ⟨_, this, ?_⟩
    exact List.count_eq_one_of_mem (List.nodup_range.map (fun i j e => (util_inj e).2)) (List.mem_map.2 ⟨i, by simpa using hi, rfl⟩)
  refine ⟨hcons, ?_, hR.joined hj, ?_, ?_, ?_, ?_, ?_, ?_, ?_⟩
  · rw [hn]; exact hR.length hw
  · rw [hd, keys_roles, List.length_map, List.range_eq_range']
  · rw [hd, keys_roles, List.length_map, List.range_eq_range']
  · intro a k hk
    rw [hd, List.getElem?_map] at hk
    cases hp : l[a]? with
    | none => rw [hp] at hk; simp at hk
    | some p =>
      rw [hp] at hk
      simp only [Option.map_some, Option.some.injEq] at hk
      subst hk
      have := get_roles (name := decName) (sel := (·.2)) (a := 0) hp
      rw [Nat.zero_add] at this
      exact this
  · intro a k hk
    rw [hu, List.getElem?_map] at hk
    cases hp : l[a]? with
    | none => rw [hp] at hk; simp at hk
    | some p =>
      rw [hp] at hk
      simp only [Option.map_some, Option.some.injEq] at hk
      subst hk
      have := get_roles (name := utilName) (sel := (·.1)) (a := 0) hp
      rw [Nat.zero_add] at this
      exact this
  · intro x hx hr
    obtain ⟨v, hv, rfl⟩ := (hR.nodes x).1 hx
    rcases newName_given hw h hv with ⟨hc, _⟩ | ⟨_, i, e⟩
    · exfalso
      obtain ⟨p, hp, hm⟩ := List.mem_flatMap.1 hc
      obtain ⟨a, hp⟩ := List.getElem?_of_mem hp
      rcases List.mem_append.1 hm with hm | hm
      · rw [oneU hp hm] at hr; cases hr
      · rw [oneD hp hm] at hr; cases hr
    · exact ⟨i, e⟩
  · intro x a hr
    obtain ⟨xs, hxs, hc⟩ := (hroleU x a).1 hr
    have hm : x ∈ xs := List.count_pos_iff.1 (by omega)
    obtain ⟨p, hp, rfl⟩ := entry hxs
    obtain ⟨i, hi, rfl⟩ := List.mem_map.1 hm
    rw [List.mem_range] at hi
    rw [← hutil hp (List.getElem?_eq_getElem hi)]
    have := h.barren p (memOf hp) _ (List.getElem_mem hi)
    exact hR.barren hw this.1 this.2
  · intro x a hr
    obtain ⟨xs, hxs, hc⟩ := (hroleD x a).1 hr
    have hm : x ∈ xs := List.count_pos_iff.1 (by omega)
    obtain ⟨p, hp, rfl⟩ := entry hxs
    obtain ⟨i, hi, rfl⟩ := List.mem_map.1 hm
    rw [List.mem_range] at hi
    rw [← hdec hp (List.getElem?_eq_getElem hi)]
    obtain ⟨u, hu', hdd⟩ := h.desc p (memOf hp) _ (List.getElem_mem hi)
    exact ⟨_, oneU hp hu', hR.desc hdd⟩

/-! ### adding edges -/

/-- only edges to decisions are added, and only from nodes that had children -/
structure Kept (mb mb' : Macid) : Prop where
  same : mb' = { mb with g := mb'.g }
  wf : mb'.g.WF
  nodes : mb'.g.nodes = mb.g.nodes
  old : ∀ a b, mb.g.Edge a b → mb'.g.Edge a b
  new : ∀ a b, mb'.g.Edge a b → mb.g.Edge a b ∨ (b ∈ mb.decisions ∧ ∃ c, mb.g.Edge a c)

theorem Kept.refl {mb : Macid} (hw : mb.g.WF) : Kept mb mb := ⟨rfl, hw, rfl, fun _ _ h => h, fun _ _ h => Or.inl h⟩

theorem Kept.decisions {mb mb' : Macid} (h : Kept mb mb') : mb'.decisions = mb.decisions := by rw [h.same]; rfl

theorem Kept.trans {m1 m2 m3 : Macid} (h : Kept m1 m2) (h' : Kept m2 m3) : Kept m1 m3 := by
  refine ⟨?_, h'.wf, h'.nodes.trans h.nodes, fun a b he => h'.old a b (h.old a b he), ?_⟩
  · rw [h'.same, h.same]
  · intro a b he
    rcases h'.new a b he with he | ⟨hb, c, hc⟩
    · exact h.new a b he
    · refine Or.inr ⟨by rw [← h.decisions]; exact hb, ?_⟩
      rcases h.new a c hc with hc | ⟨_, k⟩
      · exact ⟨c, hc⟩
      · exact k

theorem Kept.role {mb mb' : Macid} (h : Kept mb mb') (v : Node) : mb'.role v = mb.role v := by rw [h.same]; rfl

theorem Kept.game {w : Wanted} {mb mb' : Macid} (h : Kept mb mb') (hg : IsRandomGame w mb) : IsRandomGame w mb' := by
  have hs := h.same
  have ed : mb'.agentDecisions = mb.agentDecisions := by rw [hs]
  have eu : mb'.agentUtilities = mb.agentUtilities := by rw [hs]
  have eD : mb'.decisionAgent = mb.decisionAgent := by rw [hs]
  have eU : mb'.utilityAgent = mb.utilityAgent := by rw [hs]
  have hc := hg.consistent
  have hdesc : ∀ {a b}, mb.g.Desc a b → mb'.g.Desc a b := fun hd => TransGen.mono (fun a b he => h.old a b he) _ _ hd
  refine ⟨⟨h.wf, by rw [ed, eD]; exact hc.dec, by rw [eu, eU]; exact hc.util, ?_, ?_⟩, by rw [h.nodes]; exact hg.size, ?_,
    by rw [ed]; exact hg.decAgents, by rw [eu]; exact hg.utilAgents, by rw [ed]; exact hg.decs, by rw [eu]; exact hg.utils, ?_, ?_, ?_⟩
  · have := hc.disj
    unfold Macid.decisions Macid.utilities at this ⊢
    rw [eD, eU]
    exact this
  · have := hc.nodes
    unfold Macid.decisions Macid.utilities at this ⊢
    rw [eD, eU, h.nodes]
    exact this
  · rw [h.nodes]
    intro u hu v hv
    refine ReflTransGen.mono ?_ _ _ (hg.joined u hu v hv)
    rintro a b (he | he)
    · exact Or.inl (h.old _ _ he)
    · exact Or.inr (h.old _ _ he)
  · intro v hv hr
    rw [h.role] at hr
    rw [h.nodes] at hv
    exact hg.chance v hv hr
  · intro u a hr c he
    rw [h.role] at hr
    rcases h.new u c he with he | ⟨_, c', hc'⟩
    · exact hg.barren u a hr c he
    · exact hg.barren u a hr c' hc'
  · intro d a hr
    rw [h.role] at hr
    obtain ⟨u, h1, h2⟩ := hg.useful d a hr
    exact ⟨u, by rw [h.role]; exact h1, hdesc h2⟩

theorem add_kept {pick : Pick} {ord : SetOrder} (ho : ord.Valid) {mb mb' : Macid} {d1 d2 u : Node} {ω ω' : Draws} (hw : mb.g.WF) (hn : NamesOk mb.g)
    (h2 : d2 ∈ mb.g.nodes) (hu : u ∈ mb.g.nodes) (hd : d2 ∈ mb.decisions) (h : addSufficientRecall pick ord mb d1 d2 u ω = some (.ok (mb', ω'))) :
    Kept mb mb' := by
  obtain ⟨_, k1, k2, k3, k4, k5⟩ := C73_add_sufficient_recall ho hw hn h2 hu h
  refine ⟨k3, k1, k2, k4, fun a b he => ?_⟩
  rcases k5 a b he with he | ⟨rfl, k⟩
  · exact Or.inl he
  · exact Or.inr ⟨hd, k⟩

theorem pair_kept {pick : Pick} {ord : SetOrder} (ho : ord.Valid) {mb mb' : Macid} {u d1 d2 : Node} {ω ω' : Draws} (hw : mb.g.WF) (hn : NamesOk mb.g)
    (hu : u ∈ mb.g.nodes) (hm : ∀ v ∈ mb.decisions, v ∈ mb.g.nodes) (h1 : d1 ∈ mb.decisions) (h2 : d2 ∈ mb.decisions)
    (h : recallPair pick ord mb u d1 d2 ω = some (.ok (mb', ω'))) : Kept mb mb' := by
  unfold recallPair at h
  rw [if_neg (by simpa using hm _ h2)] at h
  split at h
  · split at h
    · exact add_kept ho hw hn (hm _ h2) hu h2 h
    · simp only [Option.some.injEq, Except.ok.injEq, Prod.mk.injEq] at h
      obtain ⟨rfl, _⟩ := h
      exact Kept.refl hw
  · rw [if_neg (by simpa using hm _ h1)] at h
    split at h
    · exact add_kept ho hw hn (hm _ h1) hu h1 h
    · simp only [Option.some.injEq, Except.ok.injEq, Prod.mk.injEq] at h
      obtain ⟨rfl, _⟩ := h
      exact Kept.refl hw

/-- no exception for two decisions of an agent -/
theorem pair_no_error {pick : Pick} {ord : SetOrder} (ho : ord.Valid) {mb : Macid} {u d1 d2 : Node} {ω : Draws} {e : Err} (hw : mb.g.WF) (hn : NamesOk mb.g)
    (hu : u ∈ mb.g.nodes) (hb : ∀ c, ¬ mb.g.Edge u c) (h1 : d1 ∈ mb.g.nodes) (h2 : d2 ∈ mb.g.nodes) (hne : d1 ≠ d2) (hu1 : u ≠ d1) (hu2 : u ≠ d2) :
    recallPair pick ord mb u d1 d2 ω ≠ some (.error e) := by
  unfold recallPair
  rw [if_neg (show ¬ d2 ∉ mb.g.nodes from fun k => k h2)]
  split
  · rename_i ha
    obtain ⟨w, hw', hd⟩ := (Graph.mem_ancestorsOf hw).1 ha
    simp only [List.mem_singleton] at hw'
    subst hw'
    split
    · refine C73_no_exception pick ho ω hw hn h1 h2 hu ?_ hu1 (hb _) e
      intro hd'
      rcases reflTransGen_iff_eq_or_transGen.1 hd with e | hd
      · exact hne e.symm
      · exact hw.acyclic _ (hd.trans_left hd')
    · simp
  · rename_i ha
    split
    · refine C73_no_exception pick ho ω hw hn h2 h1 hu ?_ hu2 (hb _) e
      intro hd'
      exact ha ((Graph.mem_ancestorsOf hw).2 ⟨d2, by simp, hd'⟩)
    · simp

theorem mem_pairs : ∀ {l : List Node} {a b : Node}, l.Nodup → (a, b) ∈ pairs l → a ∈ l ∧ b ∈ l ∧ a ≠ b
  | [], a, b, _, h => by simp [pairs] at h
  | d :: ds, a, b, hn, h => by
    simp only [pairs, List.mem_append, List.mem_map, Prod.mk.injEq] at h
    rcases h with ⟨e, he, rfl, rfl⟩ | h
    · exact ⟨by simp, by simp [he], by rintro rfl; simp [he] at hn⟩
    · obtain ⟨h1, h2, h3⟩ := mem_pairs (List.nodup_cons.1 hn).2 h
      exact ⟨by simp [h1], by simp [h2], h3⟩

/-- utilities and pairs of decisions that can be dealt with -/
structure Fit (mb : Macid) (t : Node × Node × Node) : Prop where
  util : t.1 ∈ mb.g.nodes
  barren : ∀ c, ¬ mb.g.Edge t.1 c
  dec1 : t.2.1 ∈ mb.decisions
  dec2 : t.2.2 ∈ mb.decisions
  ne : t.2.1 ≠ t.2.2
  ne1 : t.1 ≠ t.2.1
  ne2 : t.1 ≠ t.2.2

theorem Fit.kept {mb mb' : Macid} {t : Node × Node × Node} (h : Fit mb t) (hk : Kept mb mb') : Fit mb' t := by
  refine ⟨by rw [hk.nodes]; exact h.util, ?_, by rw [hk.decisions]; exact h.dec1, by rw [hk.decisions]; exact h.dec2, h.ne, h.ne1, h.ne2⟩
  intro c hc
  rcases hk.new _ _ hc with hc | ⟨_, c', hc⟩
  · exact h.barren _ hc
  · exact h.barren _ hc

/-- what the loops need -/
structure Able' (mb : Macid) : Prop where
  wf : mb.g.WF
  given : ∀ v ∈ mb.g.nodes, Given v
  decs : ∀ v ∈ mb.decisions, v ∈ mb.g.nodes

theorem Able'.kept {mb mb' : Macid} (h : Able' mb) (hk : Kept mb mb') : Able' mb' :=
  ⟨hk.wf, by rw [hk.nodes]; exact h.given, by rw [hk.nodes, hk.decisions]; exact h.decs⟩

theorem triples_kept {pick : Pick} {ord : SetOrder} (ho : ord.Valid) : ∀ {ts : List (Node × Node × Node)} {mb mb' : Macid} {ω ω' : Draws},
    Able' mb → (∀ t ∈ ts, Fit mb t) → recallTriples pick ord ts mb ω = some (.ok (mb', ω')) → Kept mb mb'
  | [], mb, mb', ω, ω', ha, hf, h => by
    simp only [recallTriples, Option.some.injEq, Except.ok.injEq, Prod.mk.injEq] at h
    obtain ⟨rfl, _⟩ := h
    exact Kept.refl ha.wf
  | (u, d1, d2) :: ts, mb, mb', ω, ω', ha, hf, h => by
    unfold recallTriples at h
    split at h
    · simp at h
    · simp at h
    · rename_i mb1 ω1 h1
      have hF := hf (u, d1, d2) (by simp)
      have hk := pair_kept ho ha.wf (namesOk_of_given ha.given) hF.util ha.decs hF.dec1 hF.dec2 h1
      exact hk.trans (triples_kept ho (ha.kept hk) (fun t ht => (hf t (List.mem_cons_of_mem _ ht)).kept hk) h)

theorem triples_no_error {pick : Pick} {ord : SetOrder} (ho : ord.Valid) {e : Err} : ∀ {ts : List (Node × Node × Node)} {mb : Macid} {ω : Draws},
    Able' mb → (∀ t ∈ ts, Fit mb t) → recallTriples pick ord ts mb ω ≠ some (.error e)
  | [], mb, ω, ha, hf => by simp [recallTriples]
  | (u, d1, d2) :: ts, mb, ω, ha, hf => by
    unfold recallTriples
    have hF := hf (u, d1, d2) (by simp)
    split
    · simp
    · rename_i e' h1
      exact absurd h1 (pair_no_error ho ha.wf (namesOk_of_given ha.given) hF.util hF.barren (ha.decs _ hF.dec1) (ha.decs _ hF.dec2) hF.ne hF.ne1 hF.ne2)
    · rename_i mb1 ω1 h1
      have hk := pair_kept ho ha.wf (namesOk_of_given ha.given) hF.util ha.decs hF.dec1 hF.dec2 h1
      exact triples_no_error ho (ha.kept hk) (fun t ht => (hf t (List.mem_cons_of_mem _ ht)).kept hk)

/-- the triples of an agent -/
theorem fit_agent {w : Wanted} {mb : Macid} (hg : IsRandomGame w mb) {a : Agent} {ds us : List Node} (hd : mb.agentDecisions.get? a = some ds)
    (hu : mb.agentUtilities.get? a = some us) : ∀ t ∈ us.flatMap (fun u => (pairs ds).map (fun p => (u, p.1, p.2))), Fit mb t := by
  rintro ⟨u, d1, d2⟩ ht
  simp only [List.mem_flatMap, List.mem_map, Prod.mk.injEq, Prod.exists] at ht
  obtain ⟨u', hu', a1, b1, hp, rfl, rfl, rfl⟩ := ht
  have hc := hg.consistent
  obtain ⟨m1, m2, m3⟩ := mem_pairs (hc.dec.nodup a ds hd) hp
  have hmd : ∀ x ∈ ds, x ∈ mb.decisions := fun x hx => Dict.mem_keys.2 ⟨a, (hc.dec.iff x a).2 ⟨ds, hd, hx⟩⟩
  have hmu : u' ∈ mb.utilities := Dict.mem_keys.2 ⟨a, (hc.util.iff u' a).2 ⟨us, hu, hu'⟩⟩
  have hrole : mb.role u' = .utility a := ((C15_lists_show_roles mb hc u' a).2.1).2 ⟨us, hu, List.count_eq_one_of_mem (hc.util.nodup a us hu) hu'⟩
  exact ⟨hc.nodes _ (Or.inr hmu), hg.barren _ _ hrole, hmd _ m1, hmd _ m2, m3,
    fun (e : u' = a1) => hc.disj _ (hmd _ m1) (e ▸ hmu), fun (e : u' = b1) => hc.disj _ (hmd _ m2) (e ▸ hmu)⟩

theorem able_game {w : Wanted} {mb : Macid} (hg : IsRandomGame w mb) (hv : ∀ v ∈ mb.g.nodes, Given v) : Able' mb :=
  ⟨hg.consistent.wf, hv, fun v hv => hg.consistent.nodes v (Or.inl hv)⟩

theorem agents_kept {pick : Pick} {ord : SetOrder} (ho : ord.Valid) {w : Wanted} : ∀ {as : List Agent} {mb mb' : Macid} {ω ω' : Draws},
    IsRandomGame w mb → (∀ v ∈ mb.g.nodes, Given v) → recallAgents pick ord as mb ω = some (.ok (mb', ω')) → Kept mb mb'
  | [], mb, mb', ω, ω', hg, hv, h => by
    simp only [recallAgents, Option.some.injEq, Except.ok.injEq, Prod.mk.injEq] at h
    obtain ⟨rfl, _⟩ := h
    exact Kept.refl hg.consistent.wf
  | a :: as, mb, mb', ω, ω', hg, hv, h => by
    unfold recallAgents at h
    split at h
    · simp at h
    · simp at h
    rename_i ds us hd hu
    split at h
    · simp at h
    · simp at h
    rename_i mb1 ω1 h1
    have hk := triples_kept ho (able_game hg hv) (fit_agent hg (Dict.get_ok.1 hd) (Dict.get_ok.1 hu)) h1
    exact hk.trans (agents_kept ho (hk.game hg) (by rw [hk.nodes]; exact hv) h)

theorem agents_no_error {pick : Pick} {ord : SetOrder} (ho : ord.Valid) {e : Err} {w : Wanted} : ∀ {as : List Agent} {mb : Macid} {ω : Draws},
    IsRandomGame w mb → (∀ v ∈ mb.g.nodes, Given v) → (∀ a ∈ as, a ∈ mb.agentDecisions.keys ∧ a ∈ mb.agentUtilities.keys) →
    recallAgents pick ord as mb ω ≠ some (.error e)
  | [], mb, ω, hg, hv, hk => by simp [recallAgents]
  | a :: as, mb, ω, hg, hv, hk => by
    unfold recallAgents
    obtain ⟨ds, hd⟩ := Dict.mem_keys.1 (hk a (by simp)).1
    obtain ⟨us, hu⟩ := Dict.mem_keys.1 (hk a (by simp)).2
    rw [Dict.get_ok.2 hd, Dict.get_ok.2 hu]
    simp only
    split
    · simp
    · rename_i e' h1
      exact absurd h1 (triples_no_error ho (able_game hg hv) (fit_agent hg hd hu))
    · rename_i mb1 ω1 h1
      have hkk := triples_kept ho (able_game hg hv) (fit_agent hg hd hu) h1
      refine agents_no_error ho (hkk.game hg) (by rw [hkk.nodes]; exact hv) ?_
      rw [hkk.same]
      exact fun a ha => hk a (by simp [ha])

end Random
end Verif

import Verif.Model.RandomGames
import Verif.Props.RandomGame

/-!
# Random CIDs and MACIDs: the constructors
-/

namespace Verif
namespace Random

open Relation Macid

/-- two consistent games in which corresponding nodes have the same roles -/
theorem role_eq {m m' : Macid} (hm : m.Consistent) (hm' : m'.Consistent) {v x : Node}
    (hd : ∀ a, m.decisionAgent.get? v = some a ↔ m'.decisionAgent.get? x = some a)
    (hu : ∀ a, m.utilityAgent.get? v = some a ↔ m'.utilityAgent.get? x = some a) : m'.role x = m.role v := by
  cases h : m.role v with
  | decision a => exact role_decision.2 ((hd a).1 (role_decision.1 h))
  | utility a => exact (role_utility hm').2 ((hu a).1 ((role_utility hm).1 h))
  | chance =>
    cases h' : m'.role x with
    | chance => rfl
    | decision a => rw [role_decision.2 ((hd a).2 (role_decision.1 h'))] at h; cases h
    | utility a => rw [(role_utility hm).2 ((hu a).2 ((role_utility hm').1 h'))] at h; cases h

theorem get_single {V : Type} {x : V} {a : Nat} {y : V} (h : Dict.get? ([(0, x)] : Dict Nat V) a = some y) : a = 0 ∧ y = x := by
  simp only [Dict.get?] at h
  split at h
  · rename_i e
    exact ⟨e.symm, (Option.some.inj h).symm⟩
  · simp at h

/-- the constructor called with the edges and roles of a game rebuilds it -/
theorem rebuilt {w : Wanted} {mb : Macid} (h2 : 2 ≤ w.nodes) (hg : IsRandomGame w mb) :
    ∃ m, Macid.init mb.g.edgesView mb.agentDecisions mb.agentUtilities = .ok m ∧ IsRandomGame w m ∧
      (∀ v, v ∈ m.g.nodes ↔ v ∈ mb.g.nodes) ∧ (∀ u v, m.g.Edge u v ↔ mb.g.Edge u v) := by
  have hw := hg.consistent.wf
  obtain ⟨G, hG, hR⟩ := ofEdges_renamed (f := id) hw (fun _ _ _ _ e => e) (has_neighbour hw.nodesNodup (by rw [hg.size]; exact h2) hg.joined)
    (es := mb.g.edgesView) (fun x y => by
      rw [Graph.mem_edgesView hw]
      exact ⟨fun h => ⟨x, y, h, rfl, rfl⟩, by rintro ⟨u, v, h, rfl, rfl⟩; exact h⟩)
  have hinit : Macid.init mb.g.edgesView mb.agentDecisions mb.agentUtilities =
      .ok ⟨G, mb.agentDecisions, mb.agentUtilities, invert mb.agentDecisions, invert mb.agentUtilities⟩ := by
    unfold Macid.init
    rw [hG]
  have hnode : ∀ v, v ∈ G.nodes ↔ v ∈ mb.g.nodes := fun v => by
    rw [hR.nodes]
    exact ⟨by rintro ⟨u, h, rfl⟩; exact h, fun h => ⟨v, h, rfl⟩⟩
  have hedge : ∀ u v, G.Edge u v ↔ mb.g.Edge u v := fun u v => by
    rw [hR.edge]
    exact ⟨by rintro ⟨a, b, h, rfl, rfl⟩; exact h, fun h => ⟨u, v, h, rfl, rfl⟩⟩
  have hflat : ∀ {byAgent : Dict Agent (List Node)} {byNode : Dict Node Agent}, Agree byAgent byNode → (byAgent.flatMap (·.2)).Nodup ∧
      ∀ n, n ∈ byAgent.flatMap (·.2) ↔ n ∈ byNode.keys := by
    intro byAgent byNode ha
    have hmem : ∀ n, n ∈ byAgent.flatMap (·.2) ↔ n ∈ byNode.keys := by
      intro n
      rw [Dict.mem_keys, List.mem_flatMap]
      constructor
      · rintro ⟨⟨a, l⟩, hp, hn⟩
        exact ⟨a, (ha.iff n a).2 ⟨l, Dict.get?_of_mem ha.agentKeys hp, hn⟩⟩
      · rintro ⟨a, hn⟩
        obtain ⟨l, hl, hn⟩ := (ha.iff n a).1 hn
        exact ⟨(a, l), Dict.mem_of_get? hl, hn⟩
    refine ⟨?_, hmem⟩
    rw [List.nodup_flatMap]
    refine ⟨fun p hp => ha.nodup p.1 p.2 (Dict.get?_of_mem ha.agentKeys hp), ?_⟩
    have hk := ha.agentKeys
    unfold Dict.keys at hk
    rw [List.nodup_iff_pairwise_ne, List.pairwise_map] at hk
    refine hk.imp_of_mem ?_
    intro p q hp hq hne n hn hn'
    have e1 := (ha.iff n p.1).2 ⟨p.2, Dict.get?_of_mem ha.agentKeys hp, hn⟩
    have e2 := (ha.iff n q.1).2 ⟨q.2, Dict.get?_of_mem ha.agentKeys hq, hn'⟩
    rw [e1] at e2
    exact hne (Option.some.inj e2)
  obtain ⟨f1, f2⟩ := hflat hg.consistent.dec
  obtain ⟨f3, f4⟩ := hflat hg.consistent.util
  have hcons := C15_constructor_consistent _ _ _ _ hinit hg.consistent.dec.agentKeys hg.consistent.util.agentKeys (by
      refine List.nodup_append.2 ⟨f1, f3, ?_⟩
      rintro x hx y hy rfl
      exact hg.consistent.disj x ((f2 x).1 hx) ((f4 x).1 hy)) (by
      intro n hn
      refine (hnode n).2 (hg.consistent.nodes n ?_)
      rcases List.mem_append.1 hn with hn | hn
      · exact Or.inl ((f2 n).1 hn)
      · exact Or.inr ((f4 n).1 hn))
  have hrole : ∀ v, Macid.role ⟨G, mb.agentDecisions, mb.agentUtilities, invert mb.agentDecisions, invert mb.agentUtilities⟩ v = mb.role v := by
    intro v
    refine role_eq hg.consistent hcons (fun a => ?_) (fun a => ?_)
    · rw [hg.consistent.dec.iff, hcons.dec.iff]
    · rw [hg.consistent.util.iff, hcons.util.iff]
  refine ⟨_, hinit, ⟨hcons, ?_, hR.joined hg.joined, hg.decAgents, hg.utilAgents, hg.decs, hg.utils, ?_, ?_, ?_⟩, hnode, hedge⟩
  · exact (hR.length hw).trans hg.size
  · intro v hv hr
    rw [hrole] at hr
    exact hg.chance v ((hnode v).1 hv) hr
  · intro u a hr c hc
    rw [hrole] at hr
    exact hg.barren u a hr c ((hedge u c).1 hc)
  · intro d a hr
    rw [hrole] at hr
    obtain ⟨u, h1, h2⟩ := hg.useful d a hr
    exact ⟨u, by rw [hrole]; exact h1, hR.desc h2⟩

/-! ### the names of a random CID -/

theorem toList_cd (i : Nat) : (cidDecName i).toList = 'D' :: Nat.toDigits 10 i := by
  simp [cidDecName, String.toList_append]

theorem toList_cu (i : Nat) : (cidUtilName i).toList = 'U' :: Nat.toDigits 10 i := by
  simp [cidUtilName, String.toList_append]

theorem cd_inj {i j : Nat} (h : cidDecName i = cidDecName j) : i = j := by
  have := congrArg String.toList h
  rw [toList_cd, toList_cd, List.cons.injEq] at this
  exact digits_inj this.2

theorem cu_inj {i j : Nat} (h : cidUtilName i = cidUtilName j) : i = j := by
  have := congrArg String.toList h
  rw [toList_cu, toList_cu, List.cons.injEq] at this
  exact digits_inj this.2

theorem cd_ne_cu {i j : Nat} : cidDecName i ≠ cidUtilName j := by
  intro h
  have := congrArg String.toList h
  rw [toList_cd, toList_cu] at this
  simp at this

theorem cd_ne_x {i j : Nat} : cidDecName i ≠ chanceName j := by
  intro h
  have := congrArg String.toList h
  rw [toList_cd, toList_chance] at this
  simp at this

theorem cu_ne_x {i j : Nat} : cidUtilName i ≠ chanceName j := by
  intro h
  have := congrArg String.toList h
  rw [toList_cu, toList_chance] at this
  simp at this

theorem namesOk_of_cid {g : Graph} (h : ∀ v ∈ g.nodes, (∃ i, v = cidDecName i) ∨ (∃ i, v = cidUtilName i) ∨ ∃ i, v = chanceName i) : NamesOk g := by
  constructor
  · rintro u hu v _ rfl
    obtain ⟨l, i, e⟩ : ∃ l i, (v ++ "mec").toList = l ++ Nat.toDigits 10 i := by
      rcases h _ hu with ⟨i, e⟩ | ⟨i, e⟩ | ⟨i, e⟩
      · exact ⟨['D'], i, by rw [e, toList_cd]; rfl⟩
      · exact ⟨['U'], i, by rw [e, toList_cu]; rfl⟩
      · exact ⟨['X', '_'], i, by rw [e, toList_chance]; rfl⟩
    have h1 := congrArg List.getLast? e
    rw [String.toList_append, List.getLast?_append, List.getLast?_append, List.getLast?_eq_some_getLast (Nat.toDigits_ne_nil (n := i) (b := 10))] at h1
    have h2 : ("mec" : String).toList.getLast? = some 'c' := by decide
    rw [h2] at h1
    simp only [Option.some_or, Option.some.injEq] at h1
    have := Nat.isDigit_of_mem_toDigits (b := 10) (n := i) (by decide) (by decide) (List.getLast_mem Nat.toDigits_ne_nil)
    rw [← h1] at this
    exact absurd this (by decide)
  · rintro v hv ⟨_, h2⟩
    obtain ⟨c, l, e, hc⟩ : ∃ c l, v.toList = c :: l ∧ c ≠ 'm' := by
      rcases h _ hv with ⟨i, e⟩ | ⟨i, e⟩ | ⟨i, e⟩
      · exact ⟨_, _, by rw [e]; exact toList_cd i, by decide⟩
      · exact ⟨_, _, by rw [e]; exact toList_cu i, by decide⟩
      · exact ⟨_, _, by rw [e]; exact toList_chance i, by decide⟩
    rw [e] at h2
    simp only [List.take_succ_cons, List.cons.injEq] at h2
    exact hc h2.1

theorem addEdges_fold_eq : ∀ {es : List (Node × Node)} {h G : Graph}, h.addEdges es = .ok G → es.foldl (fun h e => h.nxAddEdge e.1 e.2) h = G
  | [], h, G, he => by
    simp only [Graph.addEdges, Except.ok.injEq] at he
    exact he
  | (u, v) :: es, h, G, he => by
    unfold Graph.addEdges at he
    split at he
    · cases he
    rename_i h' hu
    have : h' = h.nxAddEdge u v := by
      unfold Graph.addEdge at hu
      split at hu
      · cases hu
      split at hu
      · cases hu
      · exact (Except.ok.inj hu).symm
    subst this
    exact addEdges_fold_eq (es := es) (h := h.nxAddEdge u v) he

theorem dagOf_spec {g : Graph} (hw : g.WF) (hj : ∀ v ∈ g.nodes, ∃ c, g.Adj v c) :
    (dagOf g.edgesView).WF ∧ (∀ u v, (dagOf g.edgesView).Edge u v ↔ g.Edge u v) ∧ ∀ v, v ∈ (dagOf g.edgesView).nodes ↔ v ∈ g.nodes := by
  obtain ⟨G, hG, hR⟩ := ofEdges_renamed (f := id) hw (fun _ _ _ _ e => e) hj (es := g.edgesView) (fun x y => by
      rw [Graph.mem_edgesView hw]
      exact ⟨fun h => ⟨x, y, h, rfl, rfl⟩, by rintro ⟨u, v, h, rfl, rfl⟩; exact h⟩)
  have : dagOf g.edgesView = G := addEdges_fold_eq hG
  rw [this]
  refine ⟨hR.wf, fun u v => ?_, fun v => ?_⟩
  · rw [hR.edge]
    exact ⟨by rintro ⟨a, b, h, rfl, rfl⟩; exact h, fun h => ⟨u, v, h, rfl, rfl⟩⟩
  · rw [hR.nodes]
    exact ⟨by rintro ⟨u, h, rfl⟩; exact h, fun h => ⟨v, h, rfl⟩⟩

theorem renames_get {name : Nat → Node} {l : List Node} (hn : l.Nodup) {i : Nat} {v : Node} (h : l[i]? = some v) :
    Dict.get? (renames name l) v = some (name i) := by
  refine Dict.get?_of_mem ?_ ?_
  · show ((renames name l).map (·.1)).Nodup
    rw [keys_renames]
    exact hn
  · unfold renames
    exact List.mem_map.2 ⟨(v, i), List.mk_mem_zipIdx_iff_getElem?.2 h, rfl⟩

theorem renames_none {name : Nat → Node} {l : List Node} {v : Node} (h : v ∉ l) : Dict.get? (renames name l) v = none := by
  by_contra hc
  obtain ⟨x, hx⟩ := Option.ne_none_iff_exists'.1 hc
  have : v ∈ (renames name l).map (·.1) := List.mem_map.2 ⟨_, Dict.mem_of_get? hx, rfl⟩
  rw [keys_renames] at this
  exact h this

theorem get?_append {l r : Dict Node Node} {v : Node} : Dict.get? (l ++ r) v = (Dict.get? l v).or (Dict.get? r v) := by
  induction l with
  | nil => simp [Dict.get?]
  | cons p l ih =>
    obtain ⟨k, x⟩ := p
    simp only [List.cons_append, Dict.get?]
    split <;> simp [ih]

/-- the CID made from a game of one agent -/
theorem cidMade {n k m : Nat} {recall : Bool} {density : Rat} {maxIn : Int} (h2 : 2 ≤ n) {mb : Macid}
    (hg : IsRandomGame ⟨n, [k], [m], recall, density, maxIn⟩ mb) :
    ∃ cid, Macid.init (relabel (dagOf mb.g.edgesView) (update (update [] (renames cidDecName mb.decisions)) (renames cidUtilName mb.utilities))).edgesView
        [(0, (renames cidDecName mb.decisions).map (·.2))] [(0, (renames cidUtilName mb.utilities).map (·.2))] = .ok cid ∧
      IsRandomCid n k m cid ∧ NamesOk cid.g ∧ ∃ f, Renamed f mb.g cid.g ∧ ∀ v ∈ mb.g.nodes, cid.role (f v) = mb.role v := by
  have hw := hg.consistent.wf
  have hc := hg.consistent
  have hj := has_neighbour hw.nodesNodup (by rw [hg.size]; exact h2) hg.joined
  obtain ⟨d1, d2, d3⟩ := dagOf_spec hw hj
  have hkd : mb.decisions.Nodup := hc.dec.nodeKeys
  have hku : mb.utilities.Nodup := hc.util.nodeKeys
  have hnd : ((renames cidDecName mb.decisions ++ renames cidUtilName mb.utilities).map (·.1)).Nodup := by
    rw [List.map_append, keys_renames, keys_renames]
    refine List.nodup_append.2 ⟨hkd, hku, ?_⟩
    rintro x hx y hy rfl
    exact hc.disj x hx hy
  have hnames : update (update [] (renames cidDecName mb.decisions)) (renames cidUtilName mb.utilities) =
      renames cidDecName mb.decisions ++ renames cidUtilName mb.utilities := by
    rw [update_new (d := []) (by
      rw [List.nil_append, keys_renames]
      exact hkd), List.nil_append, update_new hnd]
  rw [hnames]
  have hga : ∀ v a, mb.decisionAgent.get? v = some a → a = 0 := by
    intro v a h
    obtain ⟨l, hl, _⟩ := (hc.dec.iff v a).1 h
    have := Dict.mem_keys.2 ⟨l, hl⟩
    rw [hg.decAgents] at this
    simpa using this
  have hua : ∀ v a, mb.utilityAgent.get? v = some a → a = 0 := by
    intro v a h
    obtain ⟨l, hl, _⟩ := (hc.util.iff v a).1 h
    have := Dict.mem_keys.2 ⟨l, hl⟩
    rw [hg.utilAgents] at this
    simpa using this
  have hlen : mb.decisions.length = k ∧ mb.utilities.length = m := by
    constructor
    · have hl := hg.decs 0 k rfl
      have hp : mb.decisions.Perm ((List.range k).map (fun i => "D^" ++ toString 0 ++ "_" ++ toString i)) := by
        refine (List.perm_ext_iff_of_nodup hkd (hc.dec.nodup 0 _ hl)).2 (fun v => ?_)
        constructor
        · intro hv
          obtain ⟨a, ha⟩ := Dict.mem_keys.1 hv
          have := hga v a ha
          subst this
          obtain ⟨l, hl', hm⟩ := (hc.dec.iff v _).1 ha
          rw [hl] at hl'
          cases hl'
          exact hm
        · intro hv
          exact Dict.mem_keys.2 ⟨0, (hc.dec.iff v 0).2 ⟨_, hl, hv⟩⟩
      simpa using hp.length_eq
    · have hl := hg.utils 0 m rfl
      have hp : mb.utilities.Perm ((List.range m).map (fun i => "U^" ++ toString 0 ++ "_" ++ toString i)) := by
        refine (List.perm_ext_iff_of_nodup hku (hc.util.nodup 0 _ hl)).2 (fun v => ?_)
        constructor
        · intro hv
          obtain ⟨a, ha⟩ := Dict.mem_keys.1 hv
          have := hua v a ha
          subst this
          obtain ⟨l, hl', hm⟩ := (hc.util.iff v _).1 ha
          rw [hl] at hl'
          cases hl'
          exact hm
        · intro hv
          exact Dict.mem_keys.2 ⟨0, (hc.util.iff v 0).2 ⟨_, hl, hv⟩⟩
      simpa using hp.length_eq
  let N : Dict Node Node := renames cidDecName mb.decisions ++ renames cidUtilName mb.utilities
  let f : Node → Node := fun v => (N.get? v).getD v
  have fD : ∀ {i v}, mb.decisions[i]? = some v → f v = cidDecName i := by
    intro i v h
    simp only [f, N]
    rw [get?_append, renames_get hkd h]
    rfl
  have fU : ∀ {i v}, mb.utilities[i]? = some v → f v = cidUtilName i := by
    intro i v h
    simp only [f, N]
    rw [get?_append, renames_none (fun hd => hc.disj v hd (List.mem_of_getElem? h)), renames_get hku h]
    rfl
  have fX : ∀ {v}, v ∉ mb.decisions → v ∉ mb.utilities → f v = v := by
    intro v h1 h2
    simp only [f, N]
    rw [get?_append, renames_none h1, renames_none h2]
    rfl
  have kinds : ∀ v ∈ mb.g.nodes, (∃ i : Nat, mb.decisions[i]? = some v ∧ f v = cidDecName i) ∨ (∃ i : Nat, mb.utilities[i]? = some v ∧ f v = cidUtilName i) ∨
      (v ∉ mb.decisions ∧ v ∉ mb.utilities ∧ f v = v ∧ ∃ i, v = chanceName i) := by
    intro v hv
    by_cases h1 : v ∈ mb.decisions
    · obtain ⟨i, hi⟩ := List.getElem?_of_mem h1
      exact Or.inl ⟨i, hi, fD hi⟩
    · by_cases h2 : v ∈ mb.utilities
      · obtain ⟨i, hi⟩ := List.getElem?_of_mem h2
        exact Or.inr (Or.inl ⟨i, hi, fU hi⟩)
      · refine Or.inr (Or.inr ⟨h1, h2, fX h1 h2, hg.chance v hv ?_⟩)
        cases hr : mb.role v with
        | chance => rfl
        | decision a => exact absurd (Dict.mem_keys.2 ⟨a, role_decision.1 hr⟩) h1
        | utility a => exact absurd (Dict.mem_keys.2 ⟨a, (role_utility hc).1 hr⟩) h2
  have finj : ∀ u ∈ mb.g.nodes, ∀ v ∈ mb.g.nodes, f u = f v → u = v := by
    intro u hu v hv e
    rcases kinds u hu with ⟨i, hi, e1⟩ | ⟨i, hi, e1⟩ | ⟨_, _, e1, i, hi⟩ <;> rcases kinds v hv with ⟨j, hj, e2⟩ | ⟨j, hj, e2⟩ | ⟨_, _, e2, j, hj⟩ <;>
      rw [e1, e2] at e
    · have := cd_inj e
      subst this
      rw [hi] at hj
      exact Option.some.inj hj
    · exact absurd e cd_ne_cu
    · rw [hj] at e; exact absurd e cd_ne_x
    · exact absurd e.symm cd_ne_cu
    · have := cu_inj e
      subst this
      rw [hi] at hj
      exact Option.some.inj hj
    · rw [hj] at e; exact absurd e cu_ne_x
    · rw [hi] at e; exact absurd e.symm cd_ne_x
    · rw [hi] at e; exact absurd e.symm cu_ne_x
    · exact e
  obtain ⟨G, hG, hR⟩ := ofEdges_renamed (f := f) hw finj hj (es := (relabel (dagOf mb.g.edgesView) N).edgesView) (fun x y => by
    rw [relabel_edges d1]
    constructor
    · rintro ⟨u, v, h, e1, e2⟩; exact ⟨u, v, (d2 u v).1 h, e1, e2⟩
    · rintro ⟨u, v, h, e1, e2⟩; exact ⟨u, v, (d2 u v).2 h, e1, e2⟩)
  rw [vals_renames, vals_renames, hlen.1, hlen.2]
  have hinit : Macid.init (relabel (dagOf mb.g.edgesView) N).edgesView [(0, (List.range k).map cidDecName)] [(0, (List.range m).map cidUtilName)] =
      .ok ⟨G, [(0, (List.range k).map cidDecName)], [(0, (List.range m).map cidUtilName)], invert [(0, (List.range k).map cidDecName)],
        invert [(0, (List.range m).map cidUtilName)]⟩ := by
    unfold Macid.init
    rw [hG]
  have hcons := C15_constructor_consistent _ _ _ _ hinit (by simp [Dict.keys]) (by simp [Dict.keys]) (by
      simp only [List.flatMap_cons, List.flatMap_nil, List.append_nil]
      refine List.nodup_append.2 ⟨List.nodup_range.map (fun i j e => cd_inj e), List.nodup_range.map (fun i j e => cu_inj e), ?_⟩
      rintro x hx y hy rfl
      obtain ⟨i, _, rfl⟩ := List.mem_map.1 hx
      obtain ⟨j, _, e⟩ := List.mem_map.1 hy
      exact cd_ne_cu e.symm) (by
      intro x hx
      simp only [List.flatMap_cons, List.flatMap_nil, List.append_nil] at hx
      rcases List.mem_append.1 hx with hx | hx
      · obtain ⟨i, hi, rfl⟩ := List.mem_map.1 hx
        rw [List.mem_range, ← hlen.1] at hi
        have hv := List.getElem?_eq_getElem hi
        exact (hR.nodes _).2 ⟨_, hc.nodes _ (Or.inl (List.mem_of_getElem? hv)), (fD hv).symm⟩
      · obtain ⟨i, hi, rfl⟩ := List.mem_map.1 hx
        rw [List.mem_range, ← hlen.2] at hi
        have hv := List.getElem?_eq_getElem hi
        exact (hR.nodes _).2 ⟨_, hc.nodes _ (Or.inr (List.mem_of_getElem? hv)), (fU hv).symm⟩)
  have hrole : ∀ v ∈ mb.g.nodes, Macid.role ⟨G, [(0, (List.range k).map cidDecName)], [(0, (List.range m).map cidUtilName)],
      invert [(0, (List.range k).map cidDecName)], invert [(0, (List.range m).map cidUtilName)]⟩ (f v) = mb.role v := by
    intro v hv
    refine role_eq hc hcons (fun a => ?_) (fun a => ?_)
    · rw [hcons.dec.iff]
      constructor
      · intro h
        have ha := hga v a h
        subst ha
        obtain ⟨i, hi⟩ := List.getElem?_of_mem (Dict.mem_keys.2 ⟨_, h⟩ : v ∈ mb.decisions)
        refine ⟨_, rfl, List.mem_map.2 ⟨i, ?_, (fD hi).symm⟩⟩
        rw [List.mem_range, ← hlen.1]
        exact (List.getElem?_eq_some_iff.1 hi).1
      · rintro ⟨l, hl, hm⟩
        obtain ⟨rfl, rfl⟩ := get_single hl
        obtain ⟨i, _, e⟩ := List.mem_map.1 hm
        rcases kinds v hv with ⟨j, hj, e1⟩ | ⟨j, hj, e1⟩ | ⟨_, _, e1, j, hj⟩
        · obtain ⟨a, ha⟩ := Dict.mem_keys.1 (List.mem_of_getElem? hj : v ∈ mb.decisions)
          have := hga v a ha
          rw [this] at ha
          exact ha
        · rw [e1] at e; exact absurd e cd_ne_cu
        · rw [e1, hj] at e; exact absurd e cd_ne_x
    · rw [hcons.util.iff]
      constructor
      · intro h
        have ha := hua v a h
        subst ha
        obtain ⟨i, hi⟩ := List.getElem?_of_mem (Dict.mem_keys.2 ⟨_, h⟩ : v ∈ mb.utilities)
        refine ⟨_, rfl, List.mem_map.2 ⟨i, ?_, (fU hi).symm⟩⟩
        rw [List.mem_range, ← hlen.2]
        exact (List.getElem?_eq_some_iff.1 hi).1
      · rintro ⟨l, hl, hm⟩
        obtain ⟨rfl, rfl⟩ := get_single hl
        obtain ⟨i, _, e⟩ := List.mem_map.1 hm
        rcases kinds v hv with ⟨j, hj, e1⟩ | ⟨j, hj, e1⟩ | ⟨_, _, e1, j, hj⟩
        · rw [e1] at e; exact absurd e.symm cd_ne_cu
        · obtain ⟨a, ha⟩ := Dict.mem_keys.1 (List.mem_of_getElem? hj : v ∈ mb.utilities)
          have := hua v a ha
          rw [this] at ha
          exact ha
        · rw [e1, hj] at e; exact absurd e cu_ne_x
  have hback : ∀ x, x ∈ G.nodes → ∃ v ∈ mb.g.nodes, x = f v := fun x hx => (hR.nodes x).1 hx
  have hinG : ∀ x a, Macid.role ⟨G, [(0, (List.range k).map cidDecName)], [(0, (List.range m).map cidUtilName)],
      invert [(0, (List.range k).map cidDecName)], invert [(0, (List.range m).map cidUtilName)]⟩ x = .decision a ∨
      Macid.role ⟨G, [(0, (List.range k).map cidDecName)], [(0, (List.range m).map cidUtilName)],
      invert [(0, (List.range k).map cidDecName)], invert [(0, (List.range m).map cidUtilName)]⟩ x = .utility a → x ∈ G.nodes := by
    rintro x a (h | h)
    · exact hcons.nodes x (Or.inl (Dict.mem_keys.2 ⟨a, role_decision.1 h⟩))
    · exact hcons.nodes x (Or.inr (Dict.mem_keys.2 ⟨a, (role_utility hcons).1 h⟩))
  refine ⟨_, hinit, ⟨hcons, ?_, hR.joined hg.joined, rfl, rfl, ?_, ?_, ?_⟩, ?_, f, hR, hrole⟩
  · exact (hR.length hw).trans hg.size
  · intro x hx hr
    obtain ⟨v, hv, rfl⟩ := hback x hx
    rw [hrole v hv] at hr
    obtain ⟨i, hi⟩ := hg.chance v hv hr
    refine ⟨i, ?_⟩
    rw [← hi]
    refine fX (fun h => ?_) (fun h => ?_)
    · obtain ⟨a, ha⟩ := Dict.mem_keys.1 h
      rw [role_decision.2 ha] at hr
      cases hr
    · obtain ⟨a, ha⟩ := Dict.mem_keys.1 h
      rw [(role_utility hc).2 ha] at hr
      cases hr
  · intro x hr
    obtain ⟨v, hv, rfl⟩ := hback x (hinG x 0 (Or.inr hr))
    rw [hrole v hv] at hr
    exact hR.barren hw hv (hg.barren v 0 hr)
  · intro x hr
    obtain ⟨v, hv, rfl⟩ := hback x (hinG x 0 (Or.inl hr))
    rw [hrole v hv] at hr
    obtain ⟨u, h1, h2⟩ := hg.useful v 0 hr
    refine ⟨f u, ?_, hR.desc h2⟩
    rw [hrole u (Graph.descEq_mem hw h2.to_reflTransGen hv)]
    exact h1
  · refine namesOk_of_cid (fun x hx => ?_)
    obtain ⟨v, hv, rfl⟩ := hback x hx
    rcases kinds v hv with ⟨i, _, e⟩ | ⟨i, _, e⟩ | ⟨_, _, e, i, hi⟩
    · exact Or.inl ⟨i, e⟩
    · exact Or.inr (Or.inl ⟨i, e⟩)
    · exact Or.inr (Or.inr ⟨i, by rw [e, hi]⟩)

end Random
end Verif

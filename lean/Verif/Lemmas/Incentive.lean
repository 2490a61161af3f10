import Verif.Lemmas.Requisite
import Verif.Props.Relevance

/-!
# Common parts of the incentive criteria
-/

namespace Verif

open Graph Relation Macid Net

/-! ### comprehension with a test that may raise -/

theorem filterM'_ok {α : Type} {f : α → Py Bool} : ∀ {xs l : List α}, filterM' f xs = .ok l →
    l.Sublist xs ∧ (∀ x ∈ xs, ∃ b, f x = .ok b) ∧ ∀ x, x ∈ l ↔ x ∈ xs ∧ f x = .ok true
  | [], l, h => by
    cases h
    simp
  | x :: xs, l, h => by
    unfold filterM' at h
    cases hf : f x with
    | error e => rw [hf] at h; simp at h
    | ok b =>
      rw [hf] at h
      cases hg : filterM' f xs with
      | error e => rw [hg] at h; simp at h
      | ok ys =>
        rw [hg] at h
        simp only [Except.ok.injEq] at h
        obtain ⟨i1, i2, i3⟩ := filterM'_ok hg
        subst h
        refine ⟨?_, ?_, fun y => ?_⟩
        · cases b with
          | true => exact i1.cons_cons x
          | false => exact i1.cons x
        · intro y hy
          rcases List.mem_cons.1 hy with rfl | hy
          · exact ⟨b, hf⟩
          · exact i2 y hy
        · cases b with
          | true =>
            simp only [if_true, List.mem_cons, i3]
            constructor
            · rintro (rfl | h)
              · exact ⟨Or.inl rfl, hf⟩
              · exact ⟨Or.inr h.1, h.2⟩
            · rintro ⟨rfl | h, h2⟩
              · exact Or.inl rfl
              · exact Or.inr ⟨h, h2⟩
          | false =>
            simp only [Bool.false_eq_true, if_false, List.mem_cons, i3]
            constructor
            · rintro h
              exact ⟨Or.inr h.1, h.2⟩
            · rintro ⟨rfl | h, h2⟩
              · rw [hf] at h2; simp at h2
              · exact ⟨h, h2⟩

theorem filterM'_error {α : Type} {f : α → Py Bool} : ∀ {xs : List α} {e : Err}, filterM' f xs = .error e →
    ∃ x ∈ xs, f x = .error e
  | [], e, h => by cases h
  | x :: xs, e, h => by
    unfold filterM' at h
    cases hf : f x with
    | error e' =>
      rw [hf] at h
      cases h
      exact ⟨x, by simp, hf⟩
    | ok b =>
      rw [hf] at h
      cases hg : filterM' f xs with
      | error e' =>
        rw [hg] at h
        cases h
        obtain ⟨y, hy, hy'⟩ := filterM'_error hg
        exact ⟨y, by simp [hy], hy'⟩
      | ok ys => rw [hg] at h; simp at h

/-! ### the checks -/

theorem guards_ok {cid : Net} {nodes : List Node} : guards cid nodes = .ok () ↔ cid.m.agents.length ≤ 1 ∧ ∀ n ∈ nodes, n ∈ cid.g.nodes := by
  unfold guards
  by_cases h : 1 < cid.m.agents.length
  · simp [h]
  · rw [if_neg h]
    simp only [not_lt] at h
    by_cases h2 : nodes.all (fun n => decide (n ∈ cid.g.nodes)) = true
    · simp only [h2, if_true, h, true_and, true_iff]
      simpa using h2
    · simp only [h2]
      simp only [List.all_eq_true, decide_eq_true_eq] at h2
      simp [h2]

theorem guards_many {cid : Net} {nodes : List Node} (h : 1 < cid.m.agents.length) : guards cid nodes = .error .value := by
  unfold guards; rw [if_pos h]

theorem guards_key {cid : Net} {nodes : List Node} (h : cid.m.agents.length ≤ 1) {n : Node} (hn : n ∈ nodes) (hn' : n ∉ cid.g.nodes) :
    guards cid nodes = .error .key := by
  unfold guards
  rw [if_neg (by omega), if_neg]
  simp only [List.all_eq_true, decide_eq_true_eq]
  exact fun h => hn' (h n hn)

theorem noRelianceCycle_congr {m : Macid} {l l' : List Node} (h : ∀ x, x ∈ l ↔ x ∈ l') : m.NoRelianceCycle l ↔ m.NoRelianceCycle l' := by
  unfold NoRelianceCycle
  simp only [h]

theorem Net.Analysable.recall {net : Net} (h : net.Analysable) (hn : NamesOk net.g) (pick : Pick) (tpick : List Node → Nat) :
    (net.m.Recalls → recallGuard pick tpick net = .ok ()) ∧ (¬ net.m.Recalls → recallGuard pick tpick net = .error .value) := by
  obtain ⟨b, h1, h2⟩ := C19_sufficient_recall_all net.m h.roles hn pick tpick (fun a ha => (h.staffed.both a).1 ha)
  have hiff : (∀ a ∈ net.m.agents, ∀ ds, net.m.agentDecisions.get? a = some ds → net.m.NoRelianceCycle ds) ↔ net.m.Recalls := by
    constructor
    · intro q a ds hds
      by_cases ha : ∃ d, net.m.role d = .decision a
      · obtain ⟨d, hd⟩ := ha
        obtain ⟨l, hl, hdl⟩ := (h.roles.dec.iff d a).1 (role_decision.1 hd)
        have hk : a ∈ net.m.agents := (h.staffed.both a).2 (Dict.mem_keys.2 ⟨l, hl⟩)
        refine (noRelianceCycle_congr (fun x => ?_)).1 (q a hk l hl)
        rw [hds, role_decision, h.roles.dec.iff]
        simp [hl]
      · have : ∀ x, x ∉ ds := fun x hx => ha ⟨x, (hds x).1 hx⟩
        intro d hd
        rcases TransGen.head'_iff.1 hd with ⟨c, hc, _⟩
        exact this _ hc.1
    · intro q a ha ds hds
      refine q a ds (fun x => ?_)
      rw [role_decision, h.roles.dec.iff]
      simp [hds]
  rw [hiff] at h2
  unfold recallGuard
  rw [h1]
  constructor
  · intro q
    rw [h2.2 q]
  · intro q
    cases b with
    | true => exact absurd (h2.1 rfl) q
    | false => rfl

/-! ### requisite graphs depend on the edges only -/

theorem Macid.IsRequisiteGraph.congr {m m' : Macid} (hr : ∀ n, m'.role n = m.role n) (hn : m'.g.nodes = m.g.nodes)
    (he : ∀ u v, m'.g.Edge u v ↔ m.g.Edge u v) {order : List Node} {H : Graph} (h : m'.IsRequisiteGraph order H) :
    m.IsRequisiteGraph order H := by
  refine ⟨h.nodes.trans hn, fun u v q => (he u v).1 (h.sub u v q), fun u v q hv => h.other u v ((he u v).2 q) hv, fun l d r hl x => ?_⟩
  rw [h.obs l d r hl x]
  refine Requisite.congr (m := m.onGraph (m.g.trimmed H r)) (m' := m'.onGraph (m'.g.trimmed H r)) hr (fun u v => ?_) _ _
  show (m'.g.trimmed H r).Edge u v ↔ (m.g.trimmed H r).Edge u v
  rw [Graph.mem_trimmed, Graph.mem_trimmed, he]

theorem Macid.IsOrder.congr {m m' : Macid} (hr : ∀ n, m'.role n = m.role n)
    (he : ∀ u v, m'.g.Edge u v ↔ m.g.Edge u v) {order : List Node} (h : m'.IsOrder order) : m.IsOrder order := by
  have e : m'.g.Edge = m.g.Edge := by
    funext u v
    exact propext (he u v)
  refine ⟨h.nodup, fun d => by rw [h.all]; simp only [hr], ?_⟩
  have := h.sorted
  simpa only [Graph.Desc, e] using this

/-- with one decision -/
theorem Macid.IsRequisiteGraph.single {m : Macid} {d : Node} {H : Graph} (h : m.IsRequisiteGraph [d] H) (x : Node) :
    H.Edge x d ↔ m.Requisite d x := by
  rw [h.obs [] d [] rfl x]
  refine Requisite.congr (m := m) (m' := m.onGraph (m.g.trimmed H [])) (fun _ => rfl) (fun u v => ?_) _ _
  show (m.g.trimmed H []).Edge u v ↔ _
  rw [Graph.mem_trimmed]
  simp

theorem Macid.IsOrder.single {m : Macid} {d : Node} {a : Agent} (hd : m.role d = .decision a) (h1 : ∀ e b, m.role e = .decision b → e = d)
    {order : List Node} (h : m.IsOrder order) : order = [d] := by
  have hm : d ∈ order := (h.all d).2 ⟨a, hd⟩
  have hall : ∀ e ∈ order, e = d := fun e he => by
    obtain ⟨b, hb⟩ := (h.all e).1 he
    exact h1 e b hb
  have hn := h.nodup
  cases order with
  | nil => simp at hm
  | cons x xs =>
    have hx := hall x (by simp)
    subst hx
    cases xs with
    | nil => rfl
    | cons y ys =>
      have hy := hall y (by simp)
      subst hy
      simp at hn

/-! ### adding the edge -/

theorem Graph.nxAddEdge_same_nodes {g : Graph} {u v : Node} (hu : u ∈ g.nodes) (hv : v ∈ g.nodes) : (g.nxAddEdge u v).nodes = g.nodes := by
  have h1 : (g.addNode u) = g := by unfold addNode; rw [if_pos hu]
  have h2 : (g.addNode v) = g := by unfold addNode; rw [if_pos hv]
  unfold nxAddEdge
  simp only [h1, h2]
  split <;> rfl

theorem Graph.addEdge_new {g : Graph} (hw : g.WF) {u v : Node} (h : ¬ g.DescEq v u) : g.addEdge u v = .ok (g.nxAddEdge u v) := by
  unfold addEdge
  rw [if_neg (show ¬ u = v by rintro rfl; exact h ReflTransGen.refl), if_neg]
  rintro ⟨_, _, q⟩
  exact h ((hasPath_iff hw).1 q)

theorem Net.Analysable.plusEdge {net : Net} (h : net.Analysable) {x d : Node} (hx : x ∈ net.g.nodes) (hd : d ∈ net.g.nodes)
    (hxd : ¬ net.g.DescEq d x) : ∃ c2 c3, net.copyWithoutCpds = .ok c2 ∧ c2.addEdge x d = (c3, .ok ()) ∧ c3.Analysable ∧
      c3.g.nodes = net.g.nodes ∧ (∀ u v, c3.g.Edge u v ↔ (net.g.plus x d).Edge u v) ∧ ∀ n, c3.m.role n = net.m.role n := by
  obtain ⟨m', h1, h2, h3, h4, h5⟩ := C16_copy_exact net.m h.roles net.base h.base h.staffed.both
  have e : m'.g.Edge = net.g.Edge := by
    funext u v
    exact propext (h4 u v)
  have hxd' : ¬ m'.g.DescEq d x := by
    unfold DescEq at hxd ⊢
    rw [e]; exact hxd
  have hstaff : Net.Staffed ⟨m', [], [], [], net.base⟩ := staffed_of_copy h.roles h.base h.staffed h1 rfl rfl
  have hnodes : (m'.g.nxAddEdge x d).nodes = net.g.nodes := by
    rw [nxAddEdge_same_nodes (by rw [h3]; exact hx) (by rw [h3]; exact hd)]; exact h3
  refine ⟨⟨m', [], [], [], net.base⟩, ⟨m'.onGraph (m'.g.nxAddEdge x d), [], [], [], net.base⟩, ?_, ?_, ⟨?_, h.base, ⟨hstaff.both, hstaff.owns⟩, Or.inl rfl⟩,
    hnodes, fun u v => ?_, h5⟩
  · unfold Net.copyWithoutCpds
    rw [h1]
  · unfold Net.addEdge
    have : Net.g ⟨m', [], [], [], net.base⟩ = m'.g := rfl
    rw [this, addEdge_new h2.wf hxd']
    rfl
  · exact { h2 with wf := wf_nxAddEdge h2.wf hxd', nodes := fun n hn => (hnodes.trans h3.symm) ▸ h2.nodes n hn }
  · show (m'.g.nxAddEdge x d).Edge u v ↔ _
    rw [nxAddEdge_edge, h4]
    simp only [Graph.Edge, Graph.plus, List.mem_cons, Prod.mk.injEq]
    exact or_comm

/-! ### paths -/

theorem descEq_iff_path {g : Graph} {s t : Node} : g.DescEq s t ↔ ∃ p, g.IsDirPath s t p := by
  constructor
  · intro h
    obtain ⟨l, h1, h2⟩ := List.exists_isChain_cons_of_relationReflTransGen h
    exact ⟨s :: l, rfl, by rw [List.getLast?_eq_some_getLast (by simp), h2], h1⟩
  · rintro ⟨p, h1, h2, h3⟩
    cases p with
    | nil => simp at h1
    | cons x l =>
      simp only [List.head?_cons, Option.some.injEq] at h1
      subst h1
      have := List.relationReflTransGen_of_exists_isChain_cons l h3 (b := t) (by
        rw [List.getLast?_eq_some_getLast (by simp)] at h2
        simpa using h2)
      exact this

theorem desc_iff_path {g : Graph} (hw : g.WF) {s t : Node} (h : s ≠ t) : g.Desc s t ↔ ∃ p, g.IsDirPath s t p := by
  rw [← descEq_iff_path, desc_iff hw]
  exact ⟨fun q => q.1, fun q => ⟨q, h.symm⟩⟩

end Verif

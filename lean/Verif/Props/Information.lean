import Verif.Spec.Information
import Verif.Props.Quantify
import Verif.Props.Related

/-!
# C123: what observations are worth to one decision maker
-/

namespace Verif
open Net Graph Relation Macid

theorem Net.Informed.symm_world {cid n : Net} {obs : List (Node × Node)} (h : Informed cid obs n) {n' : Net} {obs' : List (Node × Node)}
    (h' : Informed cid obs' n') : SameWorld (· ∈ n.m.decisions) n n' :=
  (h.same.symm.trans h'.same).congr (fun v q => (h.same.decisions v).2 q)

/-- **C123** One decision maker never does worse with more observations. -/
theorem C123_more {cid : Net} {a : Agent} (hone : ∀ e b, cid.m.role e = .decision b → b = a) {obs obs' : List (Node × Node)} (hs : obs ⊆ obs')
    {n n' : Net} (h : Informed cid obs n) (h' : Informed cid obs' n') : ∃ r r', n.IsMaxEU a r ∧ n'.IsMaxEU a r' ∧ r ≤ r' := by
  have o : ∀ m : Net, ∀ ob, Informed cid ob m → ∀ e b, m.m.role e = .decision b → b = a := fun m ob hm e b q =>
    hone e b (by rw [← hm.same.roles]; exact q)
  obtain ⟨r, hr⟩ := exists_maxEU h.usable (o n _ h)
  obtain ⟨r', hr'⟩ := exists_maxEU h'.usable (o n' _ h')
  refine ⟨r, r', hr, hr', IsMaxEU.mono h.usable h'.usable (o n _ h) (h.symm_world h') (fun u v q => ?_) hr hr'⟩
  exact (h'.edges u v).2 (((h.edges u v).1 q).imp id (fun q => hs q))

/-- **C123** If `admits_voi` is False for `x` once `d` observes `y`, then `y` is at least as good an observation as `x`, and as good as both. -/
theorem C123_better {cid : Net} (hnames : NamesOk cid.g) {d x y : Node} {ny : Net} (hy : Informed cid [(y, d)] ny)
    {pick : Pick} {tpick : List Node → Nat} {setOrd : ListOrder} (hset : ∀ l, (setOrd l).Perm l) (h1 : ny.m.agents.length ≤ 1)
    (hrec : ny.m.Recalls) {a : Agent} (hd : cid.m.role d = .decision a) (hx : x ∈ cid.g.nodes) (hxd : ¬ cid.g.Edge x d) (hxy : x ≠ y)
    (hv : admitsVoi pick tpick setOrd ny d x = .ok false) {nx nxy : Net} (h : Informed cid [(x, d)] nx) (h' : Informed cid [(x, d), (y, d)] nxy) :
    ∃ rx ry, nx.IsMaxEU a rx ∧ ny.IsMaxEU a ry ∧ nxy.IsMaxEU a ry ∧ rx ≤ ry := by
  have hdy : ny.m.role d = .decision a := by rw [hy.same.roles]; exact hd
  have haa : a ∈ ny.m.agents := by
    obtain ⟨ds, q, _⟩ := (hy.usable.roles.dec.iff d a).1 (role_decision.1 hdy)
    exact (hy.usable.staffed.both a).2 (Dict.mem_keys.2 ⟨ds, q⟩)
  have hone : ∀ e b, cid.m.role e = .decision b → b = a := fun e b he =>
    hy.usable.analysable.owner h1 haa (Or.inl (by rw [hy.same.roles]; exact he))
  obtain ⟨ry, k1, k2⟩ := C53_no_value_of_information hy.usable.analysable (namesOk_sub hnames (fun v q => (hy.same.nodes v).1 q)) hset h1 hrec
    ((hy.same.nodes x).2 hx) hdy hv h'.usable hy.usable (fun v => by rw [h'.same.roles, hy.same.roles])
    (fun u v => by rw [h'.edges, hy.edges]; simp only [List.mem_cons, Prod.mk.injEq, List.not_mem_nil, or_false]; tauto)
    (fun u v => by
      rw [hy.edges]
      simp only [List.mem_cons, Prod.mk.injEq, List.not_mem_nil, or_false]
      constructor
      · intro q
        refine ⟨q, ?_⟩
        rintro ⟨rfl, rfl⟩
        rcases q with q | q
        · exact hxd q
        · exact hxy q.1
      · exact fun q => q.1) (h'.symm_world hy)
  obtain ⟨rx, r', j1, j2, j3⟩ := C123_more hone (obs := [(x, d)]) (obs' := [(x, d), (y, d)]) (by simp) h h'
  exact ⟨rx, ry, j1, k2, k1, by rw [k1.unique j2]; exact j3⟩

theorem informed_observing {cid n : Net} {d x : Node} : Informed cid [(x, d)] n ↔ Observing cid d x n := by
  constructor
  · exact fun h => ⟨h.usable, h.same, fun u v => by rw [h.edges]; simp⟩
  · exact fun h => ⟨h.usable, h.same, fun u v => by rw [h.edges]; simp⟩

theorem informed_nil {cid n : Net} {d x : Node} (he : ¬ cid.g.Edge x d) (h : NotObserving cid d x n) : Informed cid [] n :=
  ⟨h.usable, h.same, fun u v => by
    rw [h.edges]
    simp only [List.not_mem_nil, or_false]
    exact ⟨fun q => q.1, fun q => ⟨q, by rintro ⟨rfl, rfl⟩; exact he q⟩⟩⟩

/-- observing once more -/
theorem Net.Informed.observing {cid n n' : Net} {obs : List (Node × Node)} {d x : Node} (h : Informed cid obs n) (h' : Observing n d x n') :
    Informed cid ((x, d) :: obs) n' :=
  ⟨h'.usable, h.same.trans (h'.same.congr (fun v q => (h.same.decisions v).1 q)), fun u v => by
    rw [h'.edges, h.edges, List.mem_cons, Prod.mk.injEq]
    tauto⟩

theorem Net.Informed.notObserving {cid n n' : Net} {obs : List (Node × Node)} {d x : Node} (h : Informed cid obs n) (he : ¬ n.g.Edge x d)
    (h' : NotObserving n d x n') : Informed cid obs n' :=
  ⟨h'.usable, h.same.trans (h'.same.congr (fun v q => (h.same.decisions v).1 q)), fun u v => by
    rw [h'.edges, h.edges]
    refine ⟨fun q => q.1, fun q => ⟨q, ?_⟩⟩
    rintro ⟨rfl, rfl⟩
    exact he ((h.edges _ _).2 q)⟩

/-- the maximum only depends on the observations -/
theorem Net.Informed.max {cid : Net} {a : Agent} (hone : ∀ e b, cid.m.role e = .decision b → b = a) {obs obs' : List (Node × Node)}
    (hs : ∀ p, p ∈ obs ↔ p ∈ obs') {n n' : Net} (h : Informed cid obs n) (h' : Informed cid obs' n') {r : Rat} (hr : n.IsMaxEU a r) :
    n'.IsMaxEU a r :=
  IsMaxEU.same h.usable h'.usable (fun e b q => hone e b (by rw [← h.same.roles]; exact q)) (h.symm_world h')
    (fun u v => by rw [h.edges, h'.edges, hs]) hr

theorem recalls_of {m : Macid} (hone : ∀ e b, m.role e = .decision b → b = 0) (h : m.NoRelianceCycle m.decisions) : m.Recalls := fun a ds hds => by
  by_cases e : a = 0
  · subst e
    refine (noRelianceCycle_congr (fun d => ?_)).1 h
    rw [hds, decisions_role]
    exact ⟨fun ⟨b, hb⟩ => by rw [hb, hone d b hb], fun q => ⟨0, q⟩⟩
  · have : ds = [] := List.eq_nil_iff_forall_not_mem.2 (fun d hd => e (hone d a ((hds d).1 hd)))
    subst this
    intro x hx
    rcases TransGen.head'_iff.1 hx with ⟨y, q, -⟩
    exact absurd q.1 (by simp)

/-- **C123** `quantitative_voi` is 0 when `admits_voi` is False. -/
theorem C123_zero {cid : Net} (hU : cid.Usable) (hnames : NamesOk cid.g) (hone : ∀ e b, cid.m.role e = .decision b → b = 0) {d x : Node}
    (hd : cid.m.role d = .decision 0) (h1 : cid.m.agents.length ≤ 1) (hrec : cid.m.Recalls)
    (hrec1 : ∀ n, Observing cid d x n → n.m.NoRelianceCycle n.m.decisions) (hrec2 : ∀ n, NotObserving cid d x n → n.m.NoRelianceCycle n.m.decisions)
    {pick vpick : Pick} {tpick vtpick : List Node → Nat} {ord setOrd vset : List Node → List Node} {rnd1 rnd2 : Nat} (hord : ∀ l, (ord l).Perm l)
    (hset : ∀ l, (setOrd l).Perm l) (hvset : ∀ l, (vset l).Perm l) (hv : admitsVoi vpick vtpick vset cid d x = .ok false) {r : Rat}
    (h : quantitativeVoi pick tpick ord setOrd rnd1 rnd2 cid d x = .ok r) : r = 0 := by
  obtain ⟨r1, r2, e, -, ⟨n1, k1⟩, k2, ⟨n2, k3⟩, k4⟩ := C58_quantitative_voi hU hnames hone hd hrec1 hrec2 hord hset h
  have hx : x ∈ cid.g.nodes := by
    unfold quantitativeVoi at h
    split_ifs at h with c1
    simpa using c1
  obtain ⟨s, j1, j2⟩ := C53_no_value_of_information hU.analysable hnames hvset h1 hrec hx hd hv k1.usable k3.usable k1.same.roles
    k1.edges k3.edges ((k1.same.symm.trans k3.same).congr (fun v q => (k1.same.decisions v).2 q))
  rw [e, (k2 n1 k1).unique j1, (k4 n2 k3).unique j2, sub_self]

theorem not_desc {cid ny : Net} {d x y : Node} (hy : Observing cid d y ny) (h : ¬ cid.g.DescEq d x) : ¬ ny.g.DescEq d x := by
  intro q
  apply h
  clear h
  induction q with
  | refl => exact .refl
  | tail h1 h2 ih =>
    rcases (hy.edges _ _).1 h2 with e | ⟨rfl, rfl⟩
    · exact ih.tail e
    · exact .refl

theorem voi_not_desc {cid : Net} (hU : cid.Usable) {d x : Node} {pick : Pick} {tpick : List Node → Nat} {ord setOrd : List Node → List Node}
    {rnd1 rnd2 : Nat} {r : Rat} (h : quantitativeVoi pick tpick ord setOrd rnd1 rnd2 cid d x = .ok r) :
    x ∈ cid.g.nodes ∧ d ∈ cid.g.nodes ∧ ¬ cid.g.DescEq d x := by
  unfold quantitativeVoi at h
  split_ifs at h with c1 c2 c3
  refine ⟨by simpa using c1, by simpa using c2, fun q => ?_⟩
  rcases reflTransGen_iff_eq_or_transGen.1 q with e | q
  · exact c3 (Or.inl e)
  · exact c3 (Or.inr ((mem_descendants hU.good.wf).2 q))

/-- what `quantitative_voi` says about a diagram with some observations -/
theorem voi_new {cid : Net} (hnames : NamesOk cid.g) (hone : ∀ e b, cid.m.role e = .decision b → b = 0) {d x : Node}
    (hd : cid.m.role d = .decision 0) {obs : List (Node × Node)} {n : Net} (hn : Informed cid obs n)
    (hrec0 : cid.RecallWith obs) (hrec1 : cid.RecallWith ((x, d) :: obs)) (hxd : ¬ n.g.Edge x d)
    {pick : Pick} {tpick : List Node → Nat} {ord setOrd : List Node → List Node} {i j : Nat} (hord : ∀ l, (ord l).Perm l)
    (hset : ∀ l, (setOrd l).Perm l) {r : Rat} (h : quantitativeVoi pick tpick ord setOrd i j n d x = .ok r) :
    ∃ r1 r0, r = r1 - r0 ∧ n.IsMaxEU 0 r0 ∧ ∀ n', Observing n d x n' → n'.IsMaxEU 0 r1 := by
  obtain ⟨r1, r0, e, -, -, k2, -, k4⟩ := C58_quantitative_voi hn.usable (namesOk_sub hnames (fun v q => (hn.same.nodes v).1 q))
    (fun e b q => hone e b (by rw [← hn.same.roles]; exact q)) (by rw [hn.same.roles]; exact hd)
    (fun n' h' => hrec1 n' (hn.observing h')) (fun n' h' => hrec0 n' (hn.notObserving hxd h')) hord hset h
  refine ⟨r1, r0, e, k4 n ⟨hn.usable, .refl _ _, fun u v => ⟨fun q => ⟨q, ?_⟩, fun q => q.1⟩⟩, k2⟩
  rintro ⟨rfl, rfl⟩
  exact hxd q

theorem informed_self {cid : Net} (hU : cid.Usable) : Informed cid [] cid := ⟨hU, .refl _ _, fun u v => by simp⟩

/-- one decision, whatever it observes: no reliance -/
theorem Net.OneDecision.recall {cid : Net} {d : Node} (hd : cid.OneDecision d) (obs : List (Node × Node)) : cid.RecallWith obs := fun n hn =>
  recall_single (d := d) (fun e he => by
    obtain ⟨b, hb⟩ := decisions_role.1 he
    rw [hn.same.roles] at hb
    exact ((hd e b).1 hb).1)

/-- **C123** Comparing two observations: if `admits_voi` is False for `x` once `d` observes `y`, then `quantitative_voi` of `x` is at most that of
`y`.  One agent, sufficient recall with whatever `d` observes of `x` and `y`. -/
theorem C123_compare {cid : Net} (hU : cid.Usable) (hnames : NamesOk cid.g) (hone : ∀ e b, cid.m.role e = .decision b → b = 0) {d x y : Node}
    (hd : cid.m.role d = .decision 0) (hrec : ∀ obs ⊆ [(x, d), (y, d)], cid.RecallWith obs)
    (hxd : ¬ cid.g.Edge x d) (hyd : ¬ cid.g.Edge y d) (hxy : x ≠ y) {ny : Net} (hy : Observing cid d y ny) (h1 : ny.m.agents.length ≤ 1)
    {pick vpick : Pick} {tpick vtpick : List Node → Nat} {ord setOrd vset : List Node → List Node} {i1 i2 i3 i4 : Nat} (hord : ∀ l, (ord l).Perm l)
    (hset : ∀ l, (setOrd l).Perm l) (hvset : ∀ l, (vset l).Perm l) (hv : admitsVoi vpick vtpick vset ny d x = .ok false) {rx ry : Rat}
    (hrx : quantitativeVoi pick tpick ord setOrd i1 i2 cid d x = .ok rx) (hry : quantitativeVoi pick tpick ord setOrd i3 i4 cid d y = .ok ry) :
    rx ≤ ry := by
  obtain ⟨hx, hdn, hnd⟩ := voi_not_desc hU hrx
  obtain ⟨r1, r0, rfl, a0, a1⟩ := voi_new hnames hone hd (informed_self hU) (hrec _ (by simp)) (hrec _ (by simp)) hxd hord hset hrx
  obtain ⟨s1, s0, rfl, b0, b1⟩ := voi_new hnames hone hd (informed_self hU) (hrec _ (by simp)) (hrec _ (by simp)) hyd hord hset hry
  have hdd : d ∈ cid.m.decisions := decisions_role.2 ⟨0, hd⟩
  obtain ⟨nx, hnx⟩ := exists_observing hU hx hdd hnd
  obtain ⟨nxy, hnxy⟩ := exists_observing hy.usable ((hy.same.nodes x).2 hx) ((hy.same.decisions d).2 hdd) (not_desc hy hnd)
  have hry : ny.m.Recalls := recalls_of (fun e b q => hone e b (by rw [← hy.same.roles]; exact q)) (hrec [(y, d)] (by simp) ny (informed_observing.2 hy))
  obtain ⟨p, q, c1, c2, -, c4⟩ := C123_better hnames (informed_observing.2 hy) hvset h1 hry hd hx hxd hxy hv (informed_observing.2 hnx)
    ((informed_observing.2 hy).observing hnxy)
  rw [(a1 nx hnx).unique c1, (b1 ny hy).unique c2, a0.unique b0]
  linarith

/-- **C123** The chain rule: the value of observing `x` plus the value of then also observing `y` does not depend on the order.  One agent,
sufficient recall with whatever `d` observes of `x` and `y`. -/
theorem C123_chain {cid : Net} (hU : cid.Usable) (hnames : NamesOk cid.g) (hone : ∀ e b, cid.m.role e = .decision b → b = 0) {d x y : Node}
    (hd : cid.m.role d = .decision 0) (hrec : ∀ obs ⊆ [(x, d), (y, d)], cid.RecallWith obs)
    (hxd : ¬ cid.g.Edge x d) (hyd : ¬ cid.g.Edge y d) (hxy : x ≠ y) {nx ny : Net} (hx : Observing cid d x nx) (hy : Observing cid d y ny)
    {pick : Pick} {tpick : List Node → Nat} {ord setOrd : List Node → List Node} {i1 i2 i3 i4 i5 i6 i7 i8 : Nat} (hord : ∀ l, (ord l).Perm l)
    (hset : ∀ l, (setOrd l).Perm l) {rx ry rxy ryx : Rat}
    (h1 : quantitativeVoi pick tpick ord setOrd i1 i2 cid d x = .ok rx) (h2 : quantitativeVoi pick tpick ord setOrd i3 i4 nx d y = .ok ryx)
    (h3 : quantitativeVoi pick tpick ord setOrd i5 i6 cid d y = .ok ry) (h4 : quantitativeVoi pick tpick ord setOrd i7 i8 ny d x = .ok rxy) :
    rx + ryx = ry + rxy := by
  have hdd : d ∈ cid.m.decisions := decisions_role.2 ⟨0, hd⟩
  have ex : ¬ nx.g.Edge y d := fun q => by
    rcases (hx.edges _ _).1 q with q | q
    · exact hyd q
    · exact hxy q.1.symm
  have ey : ¬ ny.g.Edge x d := fun q => by
    rcases (hy.edges _ _).1 q with q | q
    · exact hxd q
    · exact hxy q.1
  have ix := informed_observing.2 hx
  have iy := informed_observing.2 hy
  obtain ⟨a1, a0, rfl, p0, p1⟩ := voi_new hnames hone hd (informed_self hU) (hrec _ (by simp)) (hrec _ (by simp)) hxd hord hset h1
  obtain ⟨b1, b0, rfl, q0, q1⟩ := voi_new hnames hone hd ix (hrec _ (by simp)) (hrec _ (by simp)) ex hord hset h2
  obtain ⟨c1, c0, rfl, r0, r1⟩ := voi_new hnames hone hd (informed_self hU) (hrec _ (by simp)) (hrec _ (by simp)) hyd hord hset h3
  obtain ⟨e1, e0, rfl, s0, s1⟩ := voi_new hnames hone hd iy (hrec _ (by simp)) (hrec _ (by simp)) ey hord hset h4
  obtain ⟨k1, k2, k3⟩ := voi_not_desc hx.usable h2
  obtain ⟨l1, l2, l3⟩ := voi_not_desc hy.usable h4
  obtain ⟨nxy, t1⟩ := exists_observing hx.usable k1 ((hx.same.decisions d).2 hdd) k3
  obtain ⟨nyx, t2⟩ := exists_observing hy.usable l1 ((hy.same.decisions d).2 hdd) l3
  have e := ((ix.observing t1).max hone (fun p => by simp only [List.mem_cons]; tauto) (iy.observing t2) (q1 nxy t1)).unique (s1 nyx t2)
  rw [(p1 nx hx).unique q0, (r1 ny hy).unique s0, p0.unique r0, e]
  ring

namespace ExVi

/-- `X` is a noisy copy of the coin `Y`; the decision should match `Y` -/
def edges : List (Node × Node) := [("Y", "X"), ("Y", "U"), ("D", "U")]
def m : Macid := ⟨⟨["Y", "X", "U", "D"], edges⟩, [(0, ["D"])], [(0, ["U"])], [("D", 0)], [("U", 0)]⟩
def noisy : Func := fun pv => .ok (.dist (if pv "Y" = some 1 then [(0, some (1 / 4)), (1, some (3 / 4))] else [(0, some (3 / 4)), (1, some (1 / 4))]))
def same : Func := fun pv => .ok (.val (if pv "Y" = pv "D" then 1 else 0))
def rels : List (Node × Rel) := [("Y", .dist [(0, some (1 / 2)), (1, some (1 / 2))]), ("X", .func noisy), ("D", .seq [0, 1]), ("U", .func same)]
def net : Net := ((Net.mk m [] [] [] Macid.new).addCpds rels).1

theorem usable : net.Usable ∧ net.m = m :=
  usable_of_build (edges := edges) (ad := [(0, ["D"])]) (au := [(0, ["U"])]) (rels := rels) (by decide +kernel)
    (by rw [← show ((Net.mk m [] [] [] Macid.new).addCpds rels).2 = .ok () by decide +kernel]; rfl) (by
      intro p hp
      simp only [rels, List.mem_cons, List.not_mem_nil, or_false] at hp
      rcases hp with rfl | rfl | rfl | rfl
      · trivial
      · intro pv; simp [noisy]
      · trivial
      · intro pv; simp [same]) (by decide +kernel)

/-- the versions with one more observation, as `add_edge` and `impute_fully_mixed_policy_profile` leave them -/
def seeing (x : Node) : Net := ((net.addEdge x "D").1.imputeMixed).1

theorem one : net.OneDecision "D" := fun e b => by
  rw [usable.2, role_decision]
  by_cases h : e = "D"
  · subst h; simp [m, Dict.get?, eq_comm]
  · simp [m, Dict.get?, h, Ne.symm h]

theorem observing {x : Node} (hx : x = "X" ∨ x = "Y") : Observing net "D" x (seeing x) := by
  have hg : net.g = m.g := by show net.m.g = _; rw [usable.2]
  have hn : x ∈ net.g.nodes := by rw [hg]; rcases hx with rfl | rfl <;> decide
  have hd : "D" ∈ net.m.decisions := by rw [usable.2]; decide
  have hnd : ¬ net.g.DescEq "D" x := by
    intro q
    rcases ReflTransGen.cases_head q with q | ⟨w, q1, q2⟩
    · subst q; simp at hx
    · rw [hg] at q1 q2
      have e : w = "U" := by
        have : ∀ p ∈ m.g.edges, p.1 = "D" → p.2 = "U" := by decide
        exact this _ q1 rfl
      subst e
      rcases ReflTransGen.cases_head q2 with q | ⟨w, q1, -⟩
      · subst q; simp at hx
      · have : ∀ p ∈ m.g.edges, p.1 ≠ "U" := by decide
        exact this _ q1 rfl
  obtain ⟨n, h1, h2, h3⟩ := usable.1.addEdge hn (usable.1.roles.nodes "D" (Or.inl hd)) hnd
  obtain ⟨n', k1, k2, k3, k4, _⟩ := h2.impute usable.1 hd
  have e : seeing x = n' := by
    unfold seeing
    rw [h1, k1]
  rw [e]
  exact ⟨k2, k3, fun u v => by rw [k4]; exact h3 u v⟩

end ExVi

/-- **C123** The hypotheses are met: observing the noisy copy `X` is worth 1/4, observing `Y` 1/2; after `Y`, `X` is worth nothing and `admits_voi` says
so, after `X`, `Y` is worth another 1/4. -/
theorem C123_example : ExVi.net.Usable ∧ NamesOk ExVi.net.g ∧ ExVi.net.OneDecision "D" ∧ (∀ obs, ExVi.net.RecallWith obs) ∧ ¬ ExVi.net.g.Edge "X" "D" ∧ ¬ ExVi.net.g.Edge "Y" "D" ∧
    Observing ExVi.net "D" "X" (ExVi.seeing "X") ∧ Observing ExVi.net "D" "Y" (ExVi.seeing "Y") ∧ (ExVi.seeing "Y").m.agents.length ≤ 1 ∧
    admitsVoi (fun _ _ => 0) (fun _ => 0) id (ExVi.seeing "Y") "D" "X" = .ok false ∧
    quantitativeVoi (fun _ _ => 0) (fun _ => 0) id id 0 0 ExVi.net "D" "X" = .ok (1 / 4) ∧
    quantitativeVoi (fun _ _ => 0) (fun _ => 0) id id 0 0 ExVi.net "D" "Y" = .ok (1 / 2) ∧
    quantitativeVoi (fun _ _ => 0) (fun _ => 0) id id 0 0 (ExVi.seeing "X") "D" "Y" = .ok (1 / 4) ∧
    quantitativeVoi (fun _ _ => 0) (fun _ => 0) id id 0 0 (ExVi.seeing "Y") "D" "X" = .ok 0 := by
  have hg : ExVi.net.g = ExVi.m.g := by show ExVi.net.m.g = _; rw [ExVi.usable.2]
  refine ⟨ExVi.usable.1, ?_, ExVi.one, ExVi.one.recall, by rw [hg]; decide, by rw [hg]; decide, ExVi.observing (Or.inl rfl), ExVi.observing (Or.inr rfl),
    by decide +kernel, by decide +kernel, by decide +kernel, by decide +kernel, by decide +kernel, by decide +kernel⟩
  rw [hg]
  exact ⟨by decide +kernel, by decide +kernel⟩

end Verif

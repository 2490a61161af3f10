import Verif.Props.Games

/-!
# C126: the game with one mixed subgame perfect equilibrium
-/

namespace Verif
open Net Graph Relation Macid

/-- decisions without parents are independent -/
theorem sumOver_factors {dom : Node → List Outcome} {k : Node → Outcome → Rat} : ∀ {ds : List Node} (_ : ds.Nodup) (a : Assign),
    sumOver dom ds (fun b => (ds.map (fun d => k d (b d))).prod) a = (ds.map (fun d => ((dom d).map (k d)).sum)).prod
  | [], _, a => by simp [sumOver]
  | d :: ds, h, a => by
    rw [List.nodup_cons] at h
    simp only [sumOver, List.map_cons, List.prod_cons]
    rw [← List.sum_map_mul_right]
    congr 1
    apply List.map_congr_left
    intro x _
    rw [← sumOver_factors (dom := dom) (k := k) h.2 (Assign.upd a d x), ← sumOver_mul_const]
    have : ∀ (es : List Node) (_ : d ∉ es) (c : Assign), c d = x → ∀ (F : Assign → Rat),
        sumOver dom es (fun b => k d (b d) * F b) c = sumOver dom es (fun b => k d x * F b) c := by
      intro es
      induction es with
      | nil => intro _ c hc F; simp [sumOver, hc]
      | cons e es ih =>
        intro he c hc F
        simp only [List.mem_cons, not_or] at he
        simp only [sumOver]
        congr 1
        apply List.map_congr_left
        intro y _
        exact ih he.2 _ (by rw [Assign.upd_ne _ _ he.1]; exact hc) F
    exact this ds h.1 _ (Assign.upd_same _ _ _) _

theorem W_factors {net : Net} (hU : net.Usable) {ds : List Node} (hn : ds.Nodup) (hm : ∀ d ∈ ds, d ∈ net.g.nodes)
    (hp : ∀ d ∈ ds, ∀ u, ¬ net.g.Edge u d) (f : Node → Outcome → Rat) :
    net.bn.W (fun a => (ds.map (fun d => f d (a d))).prod) = (ds.map (fun d => ((net.dom d).map (fun x => net.chooses d x * f d x)).sum)).prod := by
  rw [BN.W_ancestral (Net.bn_prob hU.good hU.normalised) hn hm (fun u v e hv => absurd e (hp v hv u))
    (f := fun a => (ds.map (fun d => f d (a d))).prod) (fun a b hab => congrArg List.prod (List.map_congr_left (fun d hd => by rw [hab d hd]))) (fun _ => 0)]
  have key := sumOver_factors (dom := net.dom) (k := fun d x => net.chooses d x * f d x) hn (fun _ => 0)
  rw [← key]
  show sumOver net.dom ds _ _ = _
  congr 1
  funext b
  rw [List.prod_map_mul]
  congr 1
  unfold BN.prod
  congr 1
  apply List.map_congr_left
  intro d hd
  show net.kernel d b = net.kernel d _
  apply kernel_depends hU.good (hm d hd)
  rintro v (rfl | e)
  · simp
  · exact absurd e (hp d hd v)

/-- the diagram of the game -/
def duelsM : Macid :=
  match Macid.init mixedSpeEdges mixedSpeDecisions mixedSpeUtilities with
  | .ok m => m
  | .error _ => ⟨Graph.empty, [], [], [], []⟩

/-- the decisions -/
def duelsD : List Node := ["D1", "D2", "D3", "D4", "D5", "D6", "D7"]

/-- who gets what: agent, decision, utility, sign, kind of factor, factors -/
def duelsTable : List (Agent × Node × Node × Rat × Bool × List Node) :=
  [(1, "D1", "U1", 1, false, duelsD), (2, "D2", "U2", 1, true, ["D2", "D3"]), (3, "D3", "U3", -1, true, ["D2", "D3"]),
    (4, "D4", "U4", 1, true, ["D4", "D5"]), (5, "D5", "U5", -1, true, ["D4", "D5"]),
    (6, "D6", "U6", 1, true, ["D6", "D7"]), (7, "D7", "U7", -1, true, ["D6", "D7"])]

theorem duelsM_init : Macid.init mixedSpeEdges mixedSpeDecisions mixedSpeUtilities = .ok duelsM := by decide +kernel

theorem duelsM_facts : duelsM.Consistent ∧ staffedB duelsM = true ∧ (∀ d ∈ duelsD, d ∈ duelsM.g.nodes ∧ duelsM.g.parents d = []) ∧
    duelsM.decisions = duelsD ∧ (∀ r ∈ duelsTable, duelsM.role r.2.1 = .decision r.1 ∧ duelsM.agentUtilities.get? r.1 = some [r.2.2.1] ∧
      r.2.2.1 ∈ duelsM.g.nodes ∧ (duelsM.g.parents r.2.2.1).Perm r.2.2.2.2.2) ∧ (∀ d ∈ duelsD, ∃ r ∈ duelsTable, r.2.1 = d) ∧
      duelsM.agentUtilities.keys = duelsTable.map (·.1) := by
  refine ⟨C15_constructor_consistent _ _ _ _ duelsM_init (by decide +kernel) (by decide +kernel) (by decide +kernel) (by decide +kernel), ?_⟩
  decide +kernel

theorem duels_relies : ∀ p ∈ [("D1", "D2"), ("D1", "D3"), ("D1", "D4"), ("D1", "D5"), ("D1", "D6"), ("D1", "D7"), ("D2", "D3"), ("D3", "D2"),
    ("D4", "D5"), ("D5", "D4"), ("D6", "D7"), ("D7", "D6")], duelsM.RReach p.1 p.2 := by
  obtain ⟨hc, -, -, -, -⟩ := duelsM_facts
  have hn : NamesOk duelsM.g := ⟨by decide +kernel, by decide +kernel⟩
  intro p hp
  have hD : p.1 ∈ duelsD ∧ p.2 ∈ duelsM.g.nodes ∧ isRReachable (fun _ => 0) duelsM [p.1] [p.2] = .ok true := by
    revert p
    decide +kernel
  have hpl : duelsM.Playable p.1 := by
    have : ∀ d ∈ duelsD, ∃ a ∈ duelsM.agents, duelsM.role d = .decision a := by decide +kernel
    obtain ⟨a, h1, h2⟩ := this _ hD.1
    exact ⟨a, h2, h1⟩
  obtain ⟨b, e1, e2⟩ := C18_is_r_reachable _ hc hn (fun _ => 0) [p.1] [p.2] (fun d hd => by simp only [List.mem_singleton] at hd; rw [hd]; exact hpl)
    (fun v hv => by simp only [List.mem_singleton] at hv; rw [hv]; exact hD.2.1)
  rw [hD.2.2] at e1
  cases e1
  obtain ⟨d, hd, v, hv, q⟩ := e2.1 rfl
  simp only [List.mem_singleton] at hd hv
  rw [hd, hv] at q
  exact q

/-- one factor of a payoff -/
def factor (flip : Bool) (x : Rat) : Rat := if flip then 1 - 2 * x else x

/-- the network is the game -/
structure Duels (net : Net) : Prop where
  usable : net.Usable
  m : net.m = duelsM
  dom : ∀ d ∈ duelsD, net.dom d = [0, 1]
  pay : ∀ r ∈ duelsTable, ∀ a, net.InDom a → net.kernel r.2.2.1 a =
    if a r.2.2.1 = r.2.2.2.1 * (r.2.2.2.2.2.map (fun d => factor r.2.2.2.2.1 (a d))).prod then 1 else 0

namespace Duels

variable {net : Net}

theorem mem (h : Duels net) {d : Node} (hd : d ∈ duelsD) : d ∈ net.g.nodes := by
  show d ∈ net.m.g.nodes
  rw [h.m]
  exact (duelsM_facts.2.2.1 d hd).1

theorem noParents (h : Duels net) {d : Node} (hd : d ∈ duelsD) (u : Node) : ¬ net.g.Edge u d := by
  intro e
  have := Graph.mem_parents.2 (show net.m.g.Edge u d from e)
  rw [h.m, (duelsM_facts.2.2.1 d hd).2] at this
  simp at this

theorem move (h : Duels net) {ds : List Node} (hds : ∀ d ∈ ds, d ∈ duelsD) {n : Net} (hU : n.Usable) (ho : OnlyRules net ds n) : Duels n := by
  refine ⟨hU, by rw [ho.m, h.m], fun d hd => by rw [ho.dom]; exact h.dom d hd, fun r hr a ha => ?_⟩
  have : r.2.2.1 ∉ duelsD := by
    revert r
    decide +kernel
  rw [ho.kernel (fun q => this (hds _ q))]
  exact h.pay r hr a ((ho.inDom a).1 ha)

theorem mix (h : Duels net) {d : Node} (hd : d ∈ duelsD) : 0 ≤ net.chooses d 1 ∧ net.chooses d 1 ≤ 1 ∧ net.chooses d 0 = 1 - net.chooses d 1 := by
  have hp := Net.bn_prob h.usable.good h.usable.normalised
  have hx : IsMix [0, 1] (net.chooses d) := by
    refine ⟨fun a ha => ?_, ?_⟩
    · refine hp.nonneg d (h.mem hd) _ (fun u hu => ?_)
      rcases hu with rfl | hu
      · rw [Assign.upd_same, show net.bn.dom u = net.dom u from rfl, h.dom _ hd]; exact ha
      · exact absurd hu (h.noParents hd u)
    · have := hp.norm d (h.mem hd) (fun _ => 0) (fun p e => absurd e (h.noParents hd p))
      rw [show net.bn.dom d = net.dom d from rfl, h.dom _ hd] at this
      exact this
  obtain ⟨a, b, c⟩ := (mix2 _).1 hx
  exact ⟨b, by linarith, by linarith⟩

theorem EU (h : Duels net) : ∀ r ∈ duelsTable, net.EU r.1 =
    r.2.2.2.1 * (r.2.2.2.2.2.map (fun d => factor r.2.2.2.2.1 (net.chooses d 1))).prod := by
  intro r hr
  obtain ⟨-, -, -, -, f5, -, -⟩ := duelsM_facts
  obtain ⟨k1, k2, k3, k4⟩ := f5 r hr
  have hds : r.2.2.2.2.2.Nodup ∧ ∀ d ∈ r.2.2.2.2.2, d ∈ duelsD := by
    revert r
    decide +kernel
  have hp := Net.bn_prob h.usable.good h.usable.normalised
  have e : net.EU r.1 = net.bn.W (fun a => r.2.2.2.1 * (r.2.2.2.2.2.map (fun d => factor r.2.2.2.2.1 (a d))).prod) := by
    rw [EU_eq h.usable, h.m, k2]
    refine BN.W_possible hp (fun a ha => ?_)
    have := ha.2 r.2.2.1 (by show _ ∈ net.m.g.nodes; rw [h.m]; exact k3)
    change 0 < net.kernel r.2.2.1 a at this
    rw [h.pay r hr a ha.1] at this
    split at this
    · rename_i e; simp [e]
    · simp at this
  rw [e, BN.W_mul_const, W_factors h.usable hds.1 (fun d hd => h.mem (hds.2 d hd)) (fun d hd => h.noParents (hds.2 d hd)) (fun _ x => factor r.2.2.2.2.1 x)]
  congr 2
  apply List.map_congr_left
  intro d hd
  rw [h.dom d (hds.2 d hd)]
  obtain ⟨-, -, q⟩ := h.mix (hds.2 d hd)
  simp only [List.map_cons, List.map_nil, List.sum_cons, List.sum_nil, q]
  unfold factor
  split <;> ring

theorem deviate (h : Duels net) {d : Node} (hd : d ∈ duelsD) {p : Rat} (p0 : 0 ≤ p) (p1 : p ≤ 1) :
    ∃ n, n.Usable ∧ OnlyRules net [d] n ∧ n.chooses d 1 = p := by
  have hx : IsMix [0, 1] (fun x => if x = 1 then p else 1 - p) := by
    rw [mix2]
    norm_num
    exact ⟨p1, p0⟩
  obtain ⟨n, hU, ho, hk⟩ := realize1 h.usable (h.mem hd) (σ := fun a => (fun x => if x = 1 then p else 1 - p) (a d))
    ⟨fun a b hab => by rw [hab d (.inl rfl)], fun a _ => by
      simp only [Assign.upd_same]
      rw [show net.bn.dom d = net.dom d from rfl, h.dom _ hd]; exact hx.2, fun a ha => by
      have := ha d (.inl rfl)
      rw [show net.bn.dom d = net.dom d from rfl, h.dom _ hd] at this
      exact hx.1 _ this⟩
  have hB := h.move (ds := [d]) (by simpa using hd) hU ho
  refine ⟨n, hU, ho, ?_⟩
  unfold chooses
  obtain ⟨b, hb1, hb2⟩ := exists_inDom h.usable.good (Assign.upd (fun _ => 0) d 1) (fun u => u = d) (fun u hu _ => by
    rw [hu, Assign.upd_same, h.dom _ hd]; simp)
  rw [kernel_depends hU.good (hB.mem hd) _ b (fun u hu => by
    rcases hu with rfl | e
    · exact (hb2 u rfl).symm
    · exact absurd e (hB.noParents hd u)), hk b hb1, hb2 d rfl, Assign.upd_same]
  simp

/-- other decisions are taken as before -/
theorem same {n : Net} {ds : List Node} (ho : OnlyRules net ds n) {d : Node} (hd : d ∉ ds) (x : Outcome) : n.chooses d x = net.chooses d x := by
  unfold chooses
  rw [ho.kernel hd]

/-- no agent gains by another rule for their decision -/
theorem stable (h : Duels net) : net.NoGain duelsD [1, 2, 3, 4, 5, 6, 7] ↔
    net.chooses "D1" 1 = 1 ∧ ∀ d ∈ ["D2", "D3", "D4", "D5", "D6", "D7"], net.chooses d 1 = 1 / 2 := by
  have hflt : ∀ r ∈ duelsTable, duelsD.filter (fun d => decide (net.m.role d = .decision r.1)) = [r.2.1] := by
    rw [h.m]
    decide +kernel
  have hE := h.EU
  simp only [duelsTable, List.forall_mem_cons, List.not_mem_nil, false_implies, implies_true, and_true] at hflt hE
  simp only [duelsD, List.map_cons, List.map_nil, List.prod_cons, List.prod_nil, factor, if_true, Bool.false_eq_true, if_false, mul_one, one_mul] at hE
  obtain ⟨f1, f2, f3, f4, f5, f6, f7⟩ := hflt
  obtain ⟨E1, E2, E3, E4, E5, E6, E7⟩ := hE
  have hmv : ∀ {d : Node} {n : Net}, d ∈ duelsD → n.Usable → OnlyRules net [d] n → Duels n := fun hd hU ho =>
    h.move (by simpa using hd) hU ho
  have m1 := h.mix (d := "D1") (by decide +kernel)
  have m2 := h.mix (d := "D2") (by decide +kernel)
  have m3 := h.mix (d := "D3") (by decide +kernel)
  have m4 := h.mix (d := "D4") (by decide +kernel)
  have m5 := h.mix (d := "D5") (by decide +kernel)
  have m6 := h.mix (d := "D6") (by decide +kernel)
  have m7 := h.mix (d := "D7") (by decide +kernel)
  -- the payoffs after a change of one rule
  have hE' : ∀ {n : Net}, Duels n → _ := fun hn => by
    have hE := hn.EU
    simp only [duelsTable, List.forall_mem_cons, List.not_mem_nil, false_implies, implies_true, and_true] at hE
    simp only [duelsD, List.map_cons, List.map_nil, List.prod_cons, List.prod_nil, factor, if_true, Bool.false_eq_true, if_false, mul_one, one_mul] at hE
    exact hE
  have pair : ∀ {u v : Rat}, (∀ p, 0 ≤ p → p ≤ 1 → (1 - 2 * p) * (1 - 2 * v) ≤ (1 - 2 * u) * (1 - 2 * v)) →
      (∀ p, 0 ≤ p → p ≤ 1 → -1 * ((1 - 2 * u) * (1 - 2 * p)) ≤ -1 * ((1 - 2 * u) * (1 - 2 * v))) → u = 1 / 2 ∧ v = 1 / 2 := by
    intro u v k1 k2
    have a0 := k1 0 (by norm_num) (by norm_num)
    have a1 := k1 1 (by norm_num) (by norm_num)
    have b0 := k2 0 (by norm_num) (by norm_num)
    have b1 := k2 1 (by norm_num) (by norm_num)
    constructor <;> linarith
  constructor
  · intro hn
    have p23 : net.chooses "D2" 1 = 1 / 2 ∧ net.chooses "D3" 1 = 1 / 2 := by
      apply pair
      · intro p p0 p1
        obtain ⟨n, hU, ho, e⟩ := h.deviate (d := "D2") (by decide +kernel) p0 p1
        have := hn 2 (by simp) n hU (by rw [f2]; exact ho)
        rw [E2, (hE' (hmv (by decide +kernel) hU ho)).2.1, e, same ho (d := "D3") (by decide +kernel)] at this
        exact this
      · intro p p0 p1
        obtain ⟨n, hU, ho, e⟩ := h.deviate (d := "D3") (by decide +kernel) p0 p1
        have := hn 3 (by simp) n hU (by rw [f3]; exact ho)
        rw [E3, (hE' (hmv (by decide +kernel) hU ho)).2.2.1, e, same ho (d := "D2") (by decide +kernel)] at this
        exact this
    have p45 : net.chooses "D4" 1 = 1 / 2 ∧ net.chooses "D5" 1 = 1 / 2 := by
      apply pair
      · intro p p0 p1
        obtain ⟨n, hU, ho, e⟩ := h.deviate (d := "D4") (by decide +kernel) p0 p1
        have := hn 4 (by simp) n hU (by rw [f4]; exact ho)
        rw [E4, (hE' (hmv (by decide +kernel) hU ho)).2.2.2.1, e, same ho (d := "D5") (by decide +kernel)] at this
        exact this
      · intro p p0 p1
        obtain ⟨n, hU, ho, e⟩ := h.deviate (d := "D5") (by decide +kernel) p0 p1
        have := hn 5 (by simp) n hU (by rw [f5]; exact ho)
        rw [E5, (hE' (hmv (by decide +kernel) hU ho)).2.2.2.2.1, e, same ho (d := "D4") (by decide +kernel)] at this
        exact this
    have p67 : net.chooses "D6" 1 = 1 / 2 ∧ net.chooses "D7" 1 = 1 / 2 := by
      apply pair
      · intro p p0 p1
        obtain ⟨n, hU, ho, e⟩ := h.deviate (d := "D6") (by decide +kernel) p0 p1
        have := hn 6 (by simp) n hU (by rw [f6]; exact ho)
        rw [E6, (hE' (hmv (by decide +kernel) hU ho)).2.2.2.2.2.1, e, same ho (d := "D7") (by decide +kernel)] at this
        exact this
      · intro p p0 p1
        obtain ⟨n, hU, ho, e⟩ := h.deviate (d := "D7") (by decide +kernel) p0 p1
        have := hn 7 (by simp) n hU (by rw [f7]; exact ho)
        rw [E7, (hE' (hmv (by decide +kernel) hU ho)).2.2.2.2.2.2, e, same ho (d := "D6") (by decide +kernel)] at this
        exact this
    refine ⟨?_, by simp [p23, p45, p67]⟩
    obtain ⟨n, hU, ho, e⟩ := h.deviate (d := "D1") (by decide +kernel) (p := 1) (by norm_num) (by norm_num)
    have := hn 1 (by simp) n hU (by rw [f1]; exact ho)
    rw [E1, (hE' (hmv (by decide +kernel) hU ho)).1, e, same ho (d := "D2") (by decide +kernel), same ho (d := "D3") (by decide +kernel),
      same ho (d := "D4") (by decide +kernel), same ho (d := "D5") (by decide +kernel), same ho (d := "D6") (by decide +kernel),
      same ho (d := "D7") (by decide +kernel), p23.1, p23.2, p45.1, p45.2, p67.1, p67.2] at this
    linarith [m1.2.1]
  · rintro ⟨q1, q⟩
    simp only [List.forall_mem_cons, List.not_mem_nil, false_implies, implies_true, and_true] at q
    obtain ⟨q2, q3, q4, q5, q6, q7⟩ := q
    intro agent ha n hU ho
    simp only [List.mem_cons, List.not_mem_nil, or_false] at ha
    rcases ha with rfl | rfl | rfl | rfl | rfl | rfl | rfl
    · rw [f1] at ho
      have hn := hmv (by decide +kernel) hU ho
      rw [E1, (hE' hn).1, same ho (d := "D2") (by decide +kernel), same ho (d := "D3") (by decide +kernel),
        same ho (d := "D4") (by decide +kernel), same ho (d := "D5") (by decide +kernel), same ho (d := "D6") (by decide +kernel),
        same ho (d := "D7") (by decide +kernel), q1, q2, q3, q4, q5, q6, q7]
      linarith [(hn.mix (d := "D1") (by decide +kernel)).2.1]
    · rw [f2] at ho
      rw [E2, (hE' (hmv (by decide +kernel) hU ho)).2.1, same ho (d := "D3") (by decide +kernel), q3]; norm_num
    · rw [f3] at ho
      rw [E3, (hE' (hmv (by decide +kernel) hU ho)).2.2.1, same ho (d := "D2") (by decide +kernel), q2]; norm_num
    · rw [f4] at ho
      rw [E4, (hE' (hmv (by decide +kernel) hU ho)).2.2.2.1, same ho (d := "D5") (by decide +kernel), q5]; norm_num
    · rw [f5] at ho
      rw [E5, (hE' (hmv (by decide +kernel) hU ho)).2.2.2.2.1, same ho (d := "D4") (by decide +kernel), q4]; norm_num
    · rw [f6] at ho
      rw [E6, (hE' (hmv (by decide +kernel) hU ho)).2.2.2.2.2.1, same ho (d := "D7") (by decide +kernel), q7]; norm_num
    · rw [f7] at ho
      rw [E7, (hE' (hmv (by decide +kernel) hU ho)).2.2.2.2.2.2, same ho (d := "D6") (by decide +kernel), q6]; norm_num

/-- the same in every subgame -/
theorem perfect (h : Duels net) : net.SubgamePerfect ↔
    net.chooses "D1" 1 = 1 ∧ ∀ d ∈ ["D2", "D3", "D4", "D5", "D6", "D7"], net.chooses d 1 = 1 / 2 := by
  obtain ⟨-, -, -, c4, c5, c6, c7⟩ := duelsM_facts
  constructor
  · intro hs
    rw [← h.stable]
    intro agent _ n hU ho
    refine hs duelsD (fun x _ y hy _ => by rw [h.m, c4] at hy; exact hy) net h.usable (OnlyRules.rfl' _ _) agent n hU ho
  · intro hv S hS n hU ho agent n' hU' ho'
    rw [h.m] at hS ho ho'
    have hn : Duels n := h.move (fun d hd => by rw [← c4]; exact (List.mem_filter.1 hd).1) hU ho
    have hown : ∀ r ∈ duelsTable, ∀ d, duelsM.role d = .decision r.1 → d = r.2.1 := by
      have : ∀ r ∈ duelsTable, ∀ d ∈ duelsD, duelsM.role d = .decision r.1 → d = r.2.1 := by decide +kernel
      intro r hr d hd
      exact this r hr d (by rw [← c4]; exact decisions_role.2 ⟨_, hd⟩) hd
    by_cases hag : agent ∈ duelsTable.map (·.1)
    · obtain ⟨r, hr, rfl⟩ := List.mem_map.1 hag
      -- at most the decision of this agent changes
      have hone : ∀ d, d ≠ r.2.1 → d ∉ S.filter (fun d => decide (duelsM.role d = .decision r.1)) := by
        intro d hd q
        rw [List.mem_filter, decide_eq_true_eq] at q
        exact hd (hown r hr d q.2)
      have hsub : ∀ d ∈ S.filter (fun d => decide (duelsM.role d = .decision r.1)), d ∈ duelsD := by
        intro d q
        rw [List.mem_filter, decide_eq_true_eq] at q
        rw [← c4]
        exact decisions_role.2 ⟨_, q.2⟩
      have hn' : Duels n' := hn.move hsub hU' ho'
      by_cases hin : r.2.1 ∈ S
      · -- the decisions it relies on are in the subgame
        have hold : ∀ d ∈ duelsD, d ≠ r.2.1 → duelsM.RReach r.2.1 d → n'.chooses d 1 = net.chooses d 1 ∧ n.chooses d 1 = net.chooses d 1 := by
          intro d hd hne hr'
          have hdS := hS _ hin d (by rw [c4]; exact hd) hr'
          have e := same ho (d := d) (fun q => by simp [hdS] at q) 1
          exact ⟨by rw [same ho' (hone d hne), e], e⟩
        have hrel := duels_relies
        have E := hn.EU r hr
        have E' := hn'.EU r hr
        rw [E, E']
        simp only [List.forall_mem_cons, List.not_mem_nil, false_implies, implies_true, and_true] at hv hrel
        obtain ⟨v1, v2, v3, v4, v5, v6, v7⟩ := hv
        obtain ⟨r2, r3, r4, r5, r6, r7, r23, r32, r45, r54, r67, r76⟩ := hrel
        simp only [duelsTable, List.mem_cons, List.not_mem_nil, or_false] at hr
        rcases hr with rfl | rfl | rfl | rfl | rfl | rfl | rfl <;>
          simp only [duelsD, List.map_cons, List.map_nil, List.prod_cons, List.prod_nil, factor, if_true, Bool.false_eq_true, if_false, mul_one, one_mul]
        · have k2 := hold "D2" (by decide +kernel) (by decide +kernel) r2
          have k3 := hold "D3" (by decide +kernel) (by decide +kernel) r3
          have k4 := hold "D4" (by decide +kernel) (by decide +kernel) r4
          have k5 := hold "D5" (by decide +kernel) (by decide +kernel) r5
          have k6 := hold "D6" (by decide +kernel) (by decide +kernel) r6
          have k7 := hold "D7" (by decide +kernel) (by decide +kernel) r7
          have k1 : n.chooses "D1" 1 = net.chooses "D1" 1 := same ho (d := "D1") (fun q => by simp [show "D1" ∈ S from hin] at q) 1
          rw [k1, k2.1, k2.2, k3.1, k3.2, k4.1, k4.2, k5.1, k5.2, k6.1, k6.2, k7.1, k7.2, v1, v2, v3, v4, v5, v6, v7]
          linarith [(hn'.mix (d := "D1") (by decide +kernel)).2.1]
        · have k := hold "D3" (by decide +kernel) (by decide +kernel) r23
          rw [k.1, k.2, v3]; norm_num
        · have k := hold "D2" (by decide +kernel) (by decide +kernel) r32
          rw [k.1, k.2, v2]; norm_num
        · have k := hold "D5" (by decide +kernel) (by decide +kernel) r45
          rw [k.1, k.2, v5]; norm_num
        · have k := hold "D4" (by decide +kernel) (by decide +kernel) r54
          rw [k.1, k.2, v4]; norm_num
        · have k := hold "D7" (by decide +kernel) (by decide +kernel) r67
          rw [k.1, k.2, v7]; norm_num
        · have k := hold "D6" (by decide +kernel) (by decide +kernel) r76
          rw [k.1, k.2, v6]; norm_num
      · have hall : ∀ d, n'.chooses d 1 = n.chooses d 1 := by
          intro d
          apply same ho'
          by_cases e : d = r.2.1
          · rw [e]
            exact fun q => hin (List.mem_filter.1 q).1
          · exact hone d e
        rw [hn.EU r hr, hn'.EU r hr]
        simp only [hall]
        exact le_refl _
    · have hnone : duelsM.agentUtilities.get? agent = none := by
        cases e : duelsM.agentUtilities.get? agent with
        | none => rfl
        | some l =>
          refine absurd ?_ hag
          rw [← c7]
          exact Dict.mem_keys.2 ⟨l, e⟩
      rw [EU_eq hU, EU_eq hU', ho'.m, hn.m, hnone]
      simp only [Option.getD_none, List.map_nil, List.sum_nil]
      rw [BN.W_const (Net.bn_prob hU.good hU.normalised), BN.W_const (Net.bn_prob hU'.good hU'.normalised)]

end Duels

theorem factors_val {c : Rat} {flip : Bool} {ds : List Node} {pv : PV} (h : ∀ d ∈ ds, ∃ x, pv d = some x) :
    factorsFunc c flip ds pv = .ok (.val (c * (ds.map (fun d => factor flip ((pv d).getD 0))).prod)) := by
  have : ds.mapM pv = some (ds.map (fun d => (pv d).getD 0)) := by
    induction ds with
    | nil => rfl
    | cons d ds ih =>
      obtain ⟨x, hx⟩ := h d (by simp)
      rw [List.mapM_cons, hx, ih (fun e he => h e (by simp [he]))]
      simp [hx]
  unfold factorsFunc
  rw [this]
  simp only [List.map_map]
  rfl

/-- The game is built. -/
theorem duels_built : ∃ net, subgameMixedSpe = .ok net ∧ Duels net := by
  obtain ⟨c1, c2, c3, c4, c5, c6, c7⟩ := duelsM_facts
  let T : Node → List Outcome := fun v => if v ∈ duelsD then [0, 1] else [0, 1, -1]
  have TD : ∀ d ∈ duelsD, T d = [0, 1] := fun d hd => if_pos hd
  have hcall : ∀ r ∈ duelsTable, ∀ pv, CalledWith duelsM.g T r.2.2.1 pv →
      factorsFunc r.2.2.2.1 r.2.2.2.2.1 r.2.2.2.2.2 pv = .ok (.val (r.2.2.2.1 * (r.2.2.2.2.2.map (fun d => factor r.2.2.2.2.1 ((pv d).getD 0))).prod)) ∧
        r.2.2.2.1 * (r.2.2.2.2.2.map (fun d => factor r.2.2.2.2.1 ((pv d).getD 0))).prod ∈ [(0 : Rat), 1, -1] := by
    intro r hr pv hpv
    have hds : (∀ d ∈ r.2.2.2.2.2, d ∈ duelsD) ∧ r.2.2.2.1 ∈ [(1 : Rat), -1] := by
      clear hpv
      revert r
      decide +kernel
    have hx : ∀ d ∈ r.2.2.2.2.2, ∃ x ∈ [(0 : Outcome), 1], pv d = some x := by
      intro d hd
      obtain ⟨x, mx, hx⟩ := (hpv d).1 (Graph.mem_parents.1 ((c5 r hr).2.2.2.mem_iff.2 hd))
      rw [TD d (hds.1 d hd)] at mx
      exact ⟨x, mx, hx⟩
    refine ⟨factors_val (fun d hd => by obtain ⟨x, -, e⟩ := hx d hd; exact ⟨x, e⟩), ?_⟩
    have hprod : ∀ l : List Node, (∀ d ∈ l, ∃ x ∈ [(0 : Outcome), 1], pv d = some x) →
        (l.map (fun d => factor r.2.2.2.2.1 ((pv d).getD 0))).prod ∈ [(0 : Rat), 1, -1] := by
      intro l
      induction l with
      | nil => intro _; simp
      | cons d l ih =>
        intro hl
        obtain ⟨x, mx, e⟩ := hl d (by simp)
        have i := ih (fun d' h' => hl d' (by simp [h']))
        simp only [List.map_cons, List.prod_cons, e, Option.getD_some]
        generalize (l.map (fun d => factor r.2.2.2.2.1 ((pv d).getD 0))).prod = y at i ⊢
        simp only [List.mem_cons, List.not_mem_nil, or_false] at mx i ⊢
        unfold factor
        rcases mx with rfl | rfl <;> rcases i with rfl | rfl | rfl <;> split <;> norm_num
    have i := hprod _ hx
    generalize (r.2.2.2.2.2.map (fun d => factor r.2.2.2.2.1 ((pv d).getD 0))).prod = y at i ⊢
    have j := hds.2
    generalize r.2.2.2.1 = z at j ⊢
    simp only [List.mem_cons, List.not_mem_nil, or_false] at i j ⊢
    rcases j with rfl | rfl <;> rcases i with rfl | rfl | rfl <;> norm_num
  have hrels : mixedSpeRels = duelsD.map (fun d => (d, Rel.seq [0, 1])) ++
      duelsTable.map (fun r => (r.2.2.1, Rel.func (factorsFunc r.2.2.2.1 r.2.2.2.2.1 r.2.2.2.2.2))) := rfl
  have hresp : ∀ q ∈ mixedSpeRels, q.2.Respects duelsM.g T q.1 := by
    intro q hq
    rw [hrels, List.mem_append] at hq
    rcases hq with hq | hq
    · obtain ⟨d, hd, rfl⟩ := List.mem_map.1 hq
      exact ⟨by simp, by decide +kernel, by simp only [TD d hd]; exact fun x h => h⟩
    · obtain ⟨r, hr, rfl⟩ := List.mem_map.1 hq
      intro pv hpv
      obtain ⟨e1, e2⟩ := hcall r hr pv hpv
      refine ⟨_, .inr ⟨_, e1, rfl⟩, properDist_point _, fun x hx => ?_⟩
      simp only [Dict.keys, List.map_cons, List.map_nil, List.mem_singleton] at hx
      have hnot : ∀ r ∈ duelsTable, r.2.2.1 ∉ duelsD := by decide +kernel
      rw [hx, show T r.2.2.1 = [0, 1, -1] from if_neg (hnot r hr)]
      exact e2
  have hfresh : (Net.mk duelsM [] [] [] Macid.new).Fresh := ⟨rfl, rfl, rfl⟩
  have hkeys : (mixedSpeRels.map (·.1)).Nodup := by decide +kernel
  have hperm : (mixedSpeRels.map (·.1)).Perm duelsM.g.nodes := by decide +kernel
  have hall : ∀ v, v ∈ mixedSpeRels.map (·.1) ↔ v ∈ (Net.mk duelsM [] [] [] Macid.new).g.nodes := fun v => hperm.mem_iff
  obtain ⟨net, a1, a2, a3, a4, a5, a6, a7, a8, a9, a10⟩ := C113_assignable (net := Net.mk duelsM [] [] [] Macid.new) (T := T) (l := mixedSpeRels) hfresh c1.wf
    hkeys hall hresp
  refine ⟨net, ?_, a10 c1 (.inl rfl) (staffed_of c2), a2, fun d hd => a8 _ _ ?_, fun r hr a ha => ?_⟩
  · unfold subgameMixedSpe
    rw [duelsM_init]
    simp only
    rw [a1]
  · rw [hrels]
    exact List.mem_append_left _ (List.mem_map.2 ⟨d, hd, rfl⟩)
  · rw [C113_plain_function (T := T) hfresh c1.wf hkeys hall hresp a1 (v := r.2.2.1)
      (f := factorsFunc r.2.2.2.1 r.2.2.2.2.1 r.2.2.2.2.2) (by rw [hrels]; exact List.mem_append_right _ (List.mem_map.2 ⟨r, hr, rfl⟩))
      (φ := fun pv => r.2.2.2.1 * (r.2.2.2.2.2.map (fun d => factor r.2.2.2.2.1 ((pv d).getD 0))).prod) (fun pv hpv => (hcall r hr pv hpv).1) ha]
    have : r.2.2.2.2.2.map (fun d => factor r.2.2.2.2.1 ((argsOf duelsM.g r.2.2.1 a d).getD 0)) = r.2.2.2.2.2.map (fun d => factor r.2.2.2.2.1 (a d)) := by
      apply List.map_congr_left
      intro d hd
      have : d ∈ duelsM.g.parents r.2.2.1 := (c5 r hr).2.2.2.mem_iff.2 hd
      simp only [argsOf, this, if_true, Option.getD_some]
    simp only [Net.g, this]

/-- **C126** `subgame_mixed_spe` can be built, and among all strategies exactly one is subgame perfect: the first agent chooses 1, all others
choose at random with probability one half.  In particular no pure profile is subgame perfect.  It is also the only Nash equilibrium. -/
theorem C126_subgame_mixed_spe : ∃ net, subgameMixedSpe = .ok net ∧ net.Usable ∧ ∀ n, n.Usable → OnlyRules net net.m.decisions n →
    (n.SubgamePerfect ↔ n.chooses "D1" 1 = 1 ∧ ∀ d ∈ ["D2", "D3", "D4", "D5", "D6", "D7"], n.chooses d 1 = 1 / 2) ∧
    (n.NoGain net.m.decisions [1, 2, 3, 4, 5, 6, 7] ↔ n.SubgamePerfect) := by
  obtain ⟨net, e, h⟩ := duels_built
  have hD : net.m.decisions = duelsD := by rw [h.m]; exact duelsM_facts.2.2.2.1
  refine ⟨net, e, h.usable, fun n hU ho => ?_⟩
  rw [hD] at ho ⊢
  have hn := h.move (fun d hd => hd) hU ho
  exact ⟨hn.perfect, by rw [hn.stable, hn.perfect]⟩

/-- **C126** What the agents get, as a function of the probabilities with which the decisions take the value 1; these can be chosen freely. -/
theorem C126_payoffs : ∃ net, subgameMixedSpe = .ok net ∧
    (∀ n, n.Usable → OnlyRules net net.m.decisions n → ∀ p : Node → Rat, (∀ d ∈ net.m.decisions, n.chooses d 1 = p d) →
      n.EU 1 = p "D1" * p "D2" * p "D3" * p "D4" * p "D5" * p "D6" * p "D7" ∧
      n.EU 2 = (1 - 2 * p "D2") * (1 - 2 * p "D3") ∧ n.EU 3 = -(1 - 2 * p "D2") * (1 - 2 * p "D3") ∧
      n.EU 4 = (1 - 2 * p "D4") * (1 - 2 * p "D5") ∧ n.EU 5 = -(1 - 2 * p "D4") * (1 - 2 * p "D5") ∧
      n.EU 6 = (1 - 2 * p "D6") * (1 - 2 * p "D7") ∧ n.EU 7 = -(1 - 2 * p "D6") * (1 - 2 * p "D7")) ∧
    ∀ p : Node → Rat, (∀ d ∈ net.m.decisions, 0 ≤ p d ∧ p d ≤ 1) → ∃ n, n.Usable ∧ OnlyRules net net.m.decisions n ∧
      ∀ d ∈ net.m.decisions, n.chooses d 1 = p d := by
  obtain ⟨net, e, h⟩ := duels_built
  have hD : net.m.decisions = duelsD := by rw [h.m]; exact duelsM_facts.2.2.2.1
  refine ⟨net, e, ?_⟩
  rw [hD]
  refine ⟨fun n hU ho p hp => ?_, fun p hp => ?_⟩
  · have hE := (h.move (fun d hd => hd) hU ho).EU
    simp only [duelsTable, List.forall_mem_cons, List.not_mem_nil, false_implies, implies_true, and_true] at hE
    simp only [duelsD, List.map_cons, List.map_nil, List.prod_cons, List.prod_nil, factor, if_true, Bool.false_eq_true, if_false, mul_one, one_mul] at hE
    simp only [duelsD, List.forall_mem_cons, List.not_mem_nil, false_implies, implies_true, and_true] at hp
    obtain ⟨p1, p2, p3, p4, p5, p6, p7⟩ := hp
    rw [p1, p2, p3, p4, p5, p6, p7] at hE
    obtain ⟨e1, e2, e3, e4, e5, e6, e7⟩ := hE
    rw [e1, e2, e3, e4, e5, e6, e7]
    refine ⟨by ring, rfl, by ring, rfl, by ring, rfl, by ring⟩
  · have : ∀ ds : List Node, ds.Nodup → (∀ d ∈ ds, d ∈ duelsD) → ∃ n, n.Usable ∧ OnlyRules net ds n ∧ ∀ d ∈ ds, n.chooses d 1 = p d := by
      intro ds
      induction ds with
      | nil => exact fun _ _ => ⟨net, h.usable, OnlyRules.rfl' _ _, by simp⟩
      | cons d ds ih =>
        intro hn hs
        rw [List.nodup_cons] at hn
        obtain ⟨n, a1, a2, a3⟩ := ih hn.2 (fun d' h' => hs d' (by simp [h']))
        obtain ⟨q0, q1⟩ := hp d (hs d (by simp))
        obtain ⟨n', b1, b2, b3⟩ := (h.move (fun d' h' => hs d' (by simp [h'])) a1 a2).deviate (hs d (by simp)) q0 q1
        refine ⟨n', b1, a2.trans b2 (fun _ h => by simp [h]) (fun _ h => by simp at h; simp [h]), fun d' h' => ?_⟩
        rcases List.mem_cons.1 h' with rfl | h''
        · exact b3
        · rw [Duels.same b2 (by simp only [List.mem_singleton]; rintro rfl; exact hn.1 h'')]
          exact a3 d' h''
    exact this duelsD (by decide +kernel) (fun d hd => hd)

end Verif

import Verif.Spec.Rescale
import Verif.Props.Values
import Verif.Props.Quantify

/-!
# The scale of the utilities (C121)
-/

namespace Verif

open Graph Relation Macid Net

/-- sums over outcomes in other words -/
theorem sumOver_map {dom : Node → List Outcome} (φ : Node → Outcome → Outcome) : ∀ (vs : List Node) (f : Assign → Rat) (a : Assign),
    sumOver (fun v => (dom v).map (φ v)) vs f (fun v => φ v (a v)) = sumOver dom vs (fun b => f (fun v => φ v (b v))) a
  | [], f, a => rfl
  | v :: vs, f, a => by
    simp only [sumOver, List.map_map]
    refine congrArg List.sum (List.map_congr_left (fun x _ => ?_))
    rw [← sumOver_map φ vs f (a.upd v x)]
    simp only [Function.comp]
    congr 1
    funext w
    by_cases h : w = v
    · subst h; simp [Assign.upd]
    · simp [Assign.upd, h]

/-- sums over the outcomes of nodes do not depend on what is assigned to them before -/
theorem sumOver_forget {dom : Node → List Outcome} : ∀ (vs : List Node) (f : Assign → Rat) {a b : Assign} (_ : ∀ v, v ∉ vs → a v = b v),
    sumOver dom vs f a = sumOver dom vs f b
  | [], f, a, b, h => by rw [show a = b from funext (fun v => h v (by simp))]
  | v :: vs, f, a, b, h => by
    simp only [sumOver]
    refine congrArg List.sum (List.map_congr_left (fun x _ => sumOver_forget vs f (fun w hw => ?_)))
    by_cases e : w = v
    · subst e; simp [Assign.upd]
    · simp only [Assign.upd, e, if_false]
      exact h w (by simp [e, hw])

namespace Net

theorem onScale_ne {net : Net} {k c : Agent → Rat} {v : Node} (h : ∀ b, net.m.role v ≠ .utility b) (x : Outcome) : net.onScale k c v x = x := by
  unfold onScale
  cases hr : net.m.role v with
  | utility b => exact absurd hr (h b)
  | _ => rfl

theorem onScale_eq {net : Net} {k c : Agent → Rat} {v : Node} {b : Agent} (h : net.m.role v = .utility b) (x : Outcome) :
    net.onScale k c v x = k b * x + c b := by
  unfold onScale
  rw [h]

theorem dom_get {n : Net} (h : n.Good) {v : Node} (hv : v ∈ n.g.nodes) : n.domain.get? v = some (n.dom v) := by
  obtain ⟨_, _, h'⟩ := h.complete v hv
  rw [dom_eq h', h']

/-- the rules of one network can be put into another one in which the decisions and what they observe have the same outcomes -/
theorem blendAt {n1 n2 : Net} (h1 : n1.Usable) (h2 : n2.Usable) {S : List Node} (hn : S.Nodup) (hS : ∀ d ∈ S, d ∈ n1.g.nodes)
    (hS2 : ∀ d ∈ S, d ∈ n2.g.nodes) (he : ∀ d ∈ S, ∀ p, n2.g.Edge p d ↔ n1.g.Edge p d)
    (hdom : ∀ d ∈ S, ∀ p, p = d ∨ n1.g.Edge p d → n2.domain.get? p = n1.domain.get? p) :
    ∃ M, M.Usable ∧ OnlyRules n1 S M ∧ ∀ d ∈ S, ∀ a, M.kernel d a = n2.kernel d a := by
  classical
  have hc : ∀ d ∈ S, ∃ c, n2.cpds.get? d = some c := fun d hd => by
    obtain ⟨c, hc, _⟩ := h2.good.complete d (hS2 d hd)
    exact ⟨c, hc⟩
  rcases S.eq_nil_or_concat with rfl | ⟨_, e0, _⟩
  · exact ⟨n1, h1, .rfl' _ _, by simp⟩
  obtain ⟨c0, _⟩ := hc e0 (by simp [*])
  haveI : Inhabited Cpd := ⟨c0⟩
  let f : Node → Cpd := fun d => (n2.cpds.get? d).getD default
  have hf : ∀ d ∈ S, n2.cpds.get? d = some (f d) := fun d hd => by
    obtain ⟨c, hc⟩ := hc d hd
    simp only [f, hc, Option.getD_some]
  have hvar : ∀ d ∈ S, (f d).var = d := fun d hd => (h2.good.fits d (f d) (hf d hd)).var
  have hnames : (S.map f).map (·.var) = S := by
    rw [List.map_map]
    conv_rhs => rw [← List.map_id S]
    exact List.map_congr_left (fun d hd => hvar d hd)
  have hpar : ∀ d ∈ S, ∀ p ∈ (f d).evidence, n1.g.Edge p d := fun d hd p hp =>
    (he d hd p).1 (((h2.good.fits d (f d) (hf d hd)).parents p).1 hp)
  have hev : ∀ d ∈ S, ∀ p ∈ (f d).evidence, n1.domain.get? p = n2.domain.get? p := fun d hd p hp =>
    (hdom d hd p (.inr (hpar d hd p hp))).symm
  have hdd : ∀ d ∈ S, ∀ p, p = d ∨ n1.g.Edge p d → n2.dom p = n1.dom p := fun d hd p hp => by unfold dom; rw [hdom d hd p hp]
  obtain ⟨M, k1, k2, k3, k4⟩ := addPolicy_usable (S.map f) h1 ⟨by rw [hnames]; exact hn, by
    intro k hk
    obtain ⟨d, hd, rfl⟩ := List.mem_map.1 hk
    rw [hvar d hd]
    refine ⟨hS d hd, (accept_good h2.good (hf d hd)).transfer h2.good h1.good (fun p => (he d hd p).symm) (fun p hp => ?_), fun a ha => ?_⟩
    · exact (hdom d hd p (hp.imp id (he d hd p).1)).symm
    · obtain ⟨a', ha', hag⟩ := exists_inDom h2.good a (fun u => u = d ∨ n1.g.Edge u d) (fun u hu hun => by
        rw [hdd d hd u hu]
        rcases hu with rfl | hu
        · exact ha u (hS u hd)
        · exact ha u (h1.good.wf.edgeNodes u d hu).1)
      have := h2.normalised d (hS2 d hd) a' ha'
      have hkd : ∀ b : Assign, (∀ p ∈ (f d).evidence, b p = a p) →
          n2.kernel d b = ((f d).prob n1.domain ((f d).evidence.map a) (b d)).getD 0 := by
        intro b hb
        unfold kernel
        rw [hf d hd]
        simp only
        rw [List.map_congr_left hb, prob_congr (hev d hd)]
      have hself : ∀ x, ∀ p ∈ (f d).evidence, Assign.upd a' d x p = a p := fun x p hp => by
        have hne : p ≠ d := fun e => h1.good.wf.acyclic d (.single (by
          have := hpar d hd p hp
          rwa [e] at this))
        simp only [Assign.upd, hne, if_false]
        exact hag p (.inr (hpar d hd p hp))
      rw [← hdd d hd d (.inl rfl)]
      refine ⟨?_, ?_⟩
      · have h0 := this.1
        rw [hkd a' (fun p hp => hag p (.inr (hpar d hd p hp))), hag d (.inl rfl)] at h0
        exact h0
      rw [← this.2]
      refine congrArg List.sum (List.map_congr_left (fun x _ => ?_))
      rw [hkd _ (hself x)]
      simp [Assign.upd]⟩
  rw [hnames] at k3
  refine ⟨M, k2, k3, fun d hd a => ?_⟩
  have := k4 (f d) (List.mem_map.2 ⟨d, hd, rfl⟩)
  rw [hvar d hd] at this
  unfold kernel
  rw [this, hf d hd]
  simp only
  rw [k3.domain, prob_congr (hev d hd)]

/-- expected utility on the new scale -/
theorem Rescaled.EU {k c : Agent → Rat} {n n' : Net} (hU : n.Usable) (hU' : n'.Usable) (h : Rescaled (fun _ => False) k c n n') (agent : Agent) :
    n'.EU agent = k agent * n.EU agent + c agent * n.utilityCount agent := by
  rw [EU_eq hU agent, EU_eq hU' agent]
  have hp : (n'.utils agent).Perm (n.utils agent) :=
    (List.perm_ext_iff_of_nodup (utils_nodup hU'.roles agent) (utils_nodup hU.roles agent)).2 (fun u => by
      rw [mem_utils hU', mem_utils hU, h.roles])
  have hnp : n'.g.nodes.Perm n.g.nodes :=
    (List.perm_ext_iff_of_nodup hU'.good.wf.nodesNodup hU.good.wf.nodesNodup).2 h.nodes
  have e : (fun a : Assign => ((((n'.m.agentUtilities.get? agent).getD []).map a).sum)) =
      fun a => ((((n.m.agentUtilities.get? agent).getD []).map a).sum) := by
    funext a
    exact (hp.map a).sum_eq
  rw [e]
  show sumOver n'.dom n'.g.nodes (fun a => (n'.g.nodes.map (fun v => n'.kernel v a)).prod * _) (fun _ => 0) = _
  rw [sumOver_perm hnp, sumOver_dom_perm (dom := n'.dom) (dom' := fun v => (n.dom v).map (n.onScale k c v)) (fun v hv => by rw [h.outcomes v hv])]
  rw [sumOver_forget n.g.nodes _ (b := n.onScales k c (fun _ => 0)) (fun v hv => by
    have : ∀ b, n.m.role v ≠ .utility b := fun b hb => by
      exact hv (hU.roles.nodes v (Or.inr (Dict.mem_keys.2 ⟨b, (role_utility hU.roles).1 hb⟩)))
    simp [onScales, onScale_ne this])]
  rw [show n.onScales k c (fun _ => 0) = fun v => n.onScale k c v ((fun _ : Node => (0 : Rat)) v) from rfl, sumOver_map (n.onScale k c)]
  have e2 : ∀ b, n.InDom b → (n'.g.nodes.map (fun v => n'.kernel v (n.onScales k c b))).prod *
      (((n.m.agentUtilities.get? agent).getD []).map (n.onScales k c b)).sum =
      n.bn.prod n.g.nodes b * (k agent * (((n.m.agentUtilities.get? agent).getD []).map b).sum + c agent * n.utilityCount agent) := by
    intro b hb
    congr 1
    · rw [(hnp.map _).prod_eq]
      exact congrArg List.prod (List.map_congr_left (fun v hv => h.kernels v hv (fun h => h) b hb))
    · have : ∀ l : List Node, (∀ u ∈ l, n.m.role u = .utility agent) → (l.map (n.onScales k c b)).sum = k agent * (l.map b).sum + c agent * l.length := by
        intro l
        induction l with
        | nil => simp
        | cons u l ih =>
          intro hl
          simp only [List.map_cons, List.sum_cons, List.length_cons]
          rw [ih (fun u hu => hl u (by simp [hu]))]
          simp only [onScales, onScale_eq (hl u (by simp))]
          push_cast
          ring
      exact this _ (fun u hu => (mem_utils hU).1 hu)
  refine (sumOver_congr (h := fun b => n.bn.prod n.g.nodes b * (k agent * (((n.m.agentUtilities.get? agent).getD []).map b).sum +
    c agent * n.utilityCount agent)) (fun b hb _ => e2 b hb)).trans ?_
  show n.bn.W (fun b => k agent * (((n.m.agentUtilities.get? agent).getD []).map b).sum + c agent * n.utilityCount agent) = _
  rw [BN.W_add, BN.W_mul_const, show n.bn.W (fun _ => c agent * (n.utilityCount agent : Rat)) = c agent * n.utilityCount agent by
    have := BN.W_mul_const n.bn (c agent * (n.utilityCount agent : Rat)) (fun _ => 1)
    rw [BN.W_one (bn_prob hU.good hU.normalised), mul_one] at this
    simpa using this]

theorem Rescaled.back {ds : Node → Prop} {k c : Agent → Rat} {n n' : Net} (h : Rescaled ds k c n n') (hk : ∀ b, k b ≠ 0) :
    Rescaled ds (fun b => 1 / k b) (fun b => - c b / k b) n' n := by
  have inv : ∀ v x, n'.onScale (fun b => 1 / k b) (fun b => - c b / k b) v (n.onScale k c v x) = x := by
    intro v x
    unfold onScale
    rw [h.roles]
    cases n.m.role v with
    | utility b =>
      have := hk b
      simp only
      field_simp
      ring
    | _ => rfl
  have inv' : ∀ v x, n.onScale k c v (n'.onScale (fun b => 1 / k b) (fun b => - c b / k b) v x) = x := by
    intro v x
    unfold onScale
    rw [h.roles]
    cases n.m.role v with
    | utility b =>
      have := hk b
      simp only
      field_simp
      ring
    | _ => rfl
  refine ⟨fun v => (h.nodes v).symm, fun u v => (h.edges u v).symm, fun v => (h.roles v).symm, fun v hv => ?_, fun v hv hd a ha => ?_⟩
  · rw [h.outcomes v ((h.nodes v).1 hv), List.map_map]
    conv_lhs => rw [← List.map_id (n.dom v)]
    exact List.map_congr_left (fun x _ => (inv v x).symm)
  · have hin : n.InDom (n'.onScales (fun b => 1 / k b) (fun b => - c b / k b) a) := fun w hw => by
      have := ha w ((h.nodes w).2 hw)
      rw [h.outcomes w hw, List.mem_map] at this
      obtain ⟨x, hx, e⟩ := this
      show n'.onScale _ _ w (a w) ∈ _
      rw [← e, inv]
      exact hx
    rw [← h.kernels v ((h.nodes v).1 hv) hd _ hin]
    congr 1
    funext w
    exact inv' w (a w)

theorem Rescaled.dom_blind {ds : Node → Prop} {k c : Agent → Rat} {n n' : Net} (h : Rescaled ds k c n n') (hG : n.Good) (hG' : n'.Good)
    {v : Node} (hv : v ∈ n.g.nodes) (hb : ∀ b, n.m.role v ≠ .utility b) : n'.domain.get? v = n.domain.get? v := by
  rw [dom_get hG hv, dom_get hG' ((h.nodes v).2 hv), h.outcomes v hv]
  congr 1
  conv_rhs => rw [← List.map_id (n.dom v)]
  exact List.map_congr_left (fun x _ => onScale_ne hb x)

/-- rules for one game are rules for the other -/
theorem Rescaled.carry {ds : Node → Prop} {k c : Agent → Rat} {net net' n : Net} (h : Rescaled ds k c net net') (hU : net.Usable) (hU' : net'.Usable)
    (hb : net.BlindToUtility) {S : List Node} (hnd : S.Nodup) (hS : ∀ d ∈ S, d ∈ net.m.decisions) (hds : ∀ v ∈ net.g.nodes, ds v → v ∈ S)
    (hn : n.Usable) (o : OnlyRules net S n) :
    ∃ n', n'.Usable ∧ OnlyRules net' S n' ∧ Rescaled (fun _ => False) k c n n' := by
  have hSn : ∀ d ∈ S, d ∈ net.g.nodes := fun d hd => hU.roles.nodes d (Or.inl (hS d hd))
  have hblind : ∀ d ∈ S, ∀ p, p = d ∨ net.g.Edge p d → p ∈ net.g.nodes ∧ ∀ b, net.m.role p ≠ .utility b := by
    intro d hd p hp
    obtain ⟨a, ha⟩ := decisions_role.1 (hS d hd)
    rcases hp with rfl | hp
    · exact ⟨hSn p hd, fun b e => by rw [ha] at e; cases e⟩
    · exact ⟨(hU.good.wf.edgeNodes p d hp).1, hb d a ha p hp⟩
  obtain ⟨M, m1, m2, m3⟩ := blendAt hU' hn (S := S) hnd (fun d hd => (h.nodes d).2 (hSn d hd)) (fun d hd => by rw [o.g]; exact hSn d hd)
    (fun d hd p => by rw [o.g, h.edges]) (fun d hd p hp => by
      have := hblind d hd p (hp.imp id (h.edges p d).1)
      rw [o.domain, h.dom_blind hU.good hU'.good this.1 this.2])
  have hsc : ∀ v x, n.onScale k c v x = net.onScale k c v x := fun v x => by unfold onScale; rw [o.m]
  refine ⟨M, m1, m2, ⟨fun v => by rw [m2.g, o.g]; exact h.nodes v, fun u v => by rw [m2.g, o.g]; exact h.edges u v,
    fun v => by rw [m2.m, o.m]; exact h.roles v, fun v hv => ?_, fun v hv _ a ha => ?_⟩⟩
  · rw [o.g] at hv
    rw [m2.dom, o.dom, h.outcomes v hv]
    exact List.map_congr_left (fun x _ => (hsc v x).symm)
  · rw [o.g] at hv
    have ha' := (o.inDom a).1 ha
    rw [show n.onScales k c a = net.onScales k c a from funext (fun v => hsc v (a v))]
    by_cases hvS : v ∈ S
    · rw [m3 v hvS]
      refine kernel_depends hn.good (by rw [o.g]; exact hv) _ _ (fun u hu => ?_)
      rw [o.g] at hu
      exact onScale_ne (hblind v hvS u hu).2 _
    · rw [m2.kernel hvS, o.kernel hvS, h.kernels v hv (fun q => hvS (hds v hv q)) a ha']

theorem Rescaled.blind {ds : Node → Prop} {k c : Agent → Rat} {n n' : Net} (h : Rescaled ds k c n n') (hb : n.BlindToUtility) : n'.BlindToUtility :=
  fun d a hd u hu b hr => hb d a (by rw [← h.roles]; exact hd) u ((h.edges u d).1 hu) b (by rw [← h.roles]; exact hr)

theorem Rescaled.count {ds : Node → Prop} {k c : Agent → Rat} {n n' : Net} (h : Rescaled ds k c n n') (hU : n.Usable) (hU' : n'.Usable) (agent : Agent) :
    n'.utilityCount agent = n.utilityCount agent :=
  ((List.perm_ext_iff_of_nodup (utils_nodup hU'.roles agent) (utils_nodup hU.roles agent)).2 (fun u => by
      rw [mem_utils hU', mem_utils hU, h.roles])).length_eq

theorem OnlyRules.count {n n' : Net} {S : List Node} (o : OnlyRules n S n') (agent : Agent) : n'.utilityCount agent = n.utilityCount agent := by
  unfold utilityCount
  rw [o.m]

theorem Rescaled.decs {ds : Node → Prop} {k c : Agent → Rat} {n n' : Net} (h : Rescaled ds k c n n') (d : Node) :
    d ∈ n'.m.decisions ↔ d ∈ n.m.decisions := by
  rw [decisions_role, decisions_role]
  simp only [h.roles]

theorem Rescaled.max {k c : Agent → Rat} {net net' : Net} (h : Rescaled (· ∈ net.m.decisions) k c net net') (hU : net.Usable) (hU' : net'.Usable)
    (hk : ∀ b, 0 < k b) (hb : net.BlindToUtility) {agent : Agent} {r : Rat} (hr : net.IsMaxEU agent r) :
    net'.IsMaxEU agent (k agent * r + c agent * net.utilityCount agent) := by
  constructor
  · obtain ⟨n, n1, n2, n3⟩ := hr.reached
    obtain ⟨n', q1, q2, q3⟩ := h.carry hU hU' hb hU.roles.dec.nodeKeys (fun d hd => hd) (fun v _ hv => hv) n1 n2
    refine ⟨n', q1, q2.mono (fun d hd => (h.decs d).2 hd), ?_⟩
    rw [q3.EU n1 q1, n3, n2.count]
  · intro n' n1 n2
    have hb' := h.back (fun b => (hk b).ne')
    obtain ⟨n, q1, q2, q3⟩ := hb'.carry hU' hU (h.blind hb) hU'.roles.dec.nodeKeys (fun d hd => hd) (fun v _ hv => (h.decs v).2 hv) n1 n2
    have hle := hr.bound n q1 (q2.mono (fun d hd => (h.decs d).1 hd))
    have e := q3.EU n1 q1 agent
    rw [n2.count, h.count hU hU'] at e
    rw [e] at hle
    have hk' := hk agent
    have : k agent * (1 / k agent * n'.EU agent + - c agent / k agent * (net.utilityCount agent : Rat)) =
        n'.EU agent - c agent * net.utilityCount agent := by
      field_simp
      ring
    have := mul_le_mul_of_nonneg_left hle hk'.le
    linarith

theorem Rescaled.inDom' {ds : Node → Prop} {k c : Agent → Rat} {n n' : Net} (h : Rescaled ds k c n n') {a : Assign} (ha : n.InDom a) :
    n'.InDom (n.onScales k c a) := fun v hv => by
  have hv := (h.nodes v).1 hv
  rw [h.outcomes v hv]
  exact List.mem_map.2 ⟨a v, ha v hv, rfl⟩

/-- versions of the two games that differ from them in the same way -/
theorem Rescaled.versions {ds es : Node → Prop} {k c : Agent → Rat} {cid cid' n n' : Net} (h : Rescaled ds k c cid cid')
    (hn : ∀ v, v ∈ n.g.nodes ↔ v ∈ cid.g.nodes) (hn' : ∀ v, v ∈ n'.g.nodes ↔ v ∈ cid'.g.nodes) (he : ∀ u v, n'.g.Edge u v ↔ n.g.Edge u v)
    (hr : ∀ v, n'.m.role v = n.m.role v) (hu : ∀ v b, n.m.role v = .utility b ↔ cid.m.role v = .utility b)
    (hd : ∀ v ∈ cid.g.nodes, n.dom v = cid.dom v) (hd' : ∀ v ∈ cid'.g.nodes, n'.dom v = cid'.dom v) (hs : ∀ v, ds v → es v)
    (hk : ∀ v ∈ cid.g.nodes, ¬ es v → ∀ a, cid.InDom a → n.kernel v a = cid.kernel v a)
    (hk' : ∀ v ∈ cid'.g.nodes, ¬ es v → ∀ a, cid'.InDom a → n'.kernel v a = cid'.kernel v a) : Rescaled es k c n n' := by
  have hsc : ∀ v x, n.onScale k c v x = cid.onScale k c v x := fun v x => by
    by_cases hv : ∃ b, cid.m.role v = .utility b
    · obtain ⟨b, hv⟩ := hv
      rw [onScale_eq hv, onScale_eq ((hu v b).2 hv)]
    · rw [onScale_ne (fun b hb => hv ⟨b, hb⟩), onScale_ne (fun b hb => hv ⟨b, (hu v b).1 hb⟩)]
  have hin : ∀ a, n.InDom a → cid.InDom a := fun a ha v hv => by
    rw [← hd v hv]
    exact ha v ((hn v).2 hv)
  refine ⟨fun v => by rw [hn', h.nodes, hn], he, hr, fun v hv => ?_, fun v hv hev a ha => ?_⟩
  · have hv := (hn v).1 hv
    rw [hd' v ((h.nodes v).2 hv), h.outcomes v hv, hd v hv]
    exact List.map_congr_left (fun x _ => (hsc v x).symm)
  · have hv := (hn v).1 hv
    rw [show n.onScales k c a = cid.onScales k c a from funext (fun v => hsc v (a v)), hk' v ((h.nodes v).2 hv) hev _ (h.inDom' (hin a ha)),
      h.kernels v hv (fun q => hev (hs v q)) a (hin a ha), hk v hv hev a (hin a ha)]

theorem count_roles {n n' : Net} (hU : n.Usable) (hU' : n'.Usable) (agent : Agent)
    (h : ∀ v, n'.m.role v = .utility agent ↔ n.m.role v = .utility agent) : n'.utilityCount agent = n.utilityCount agent :=
  ((List.perm_ext_iff_of_nodup (utils_nodup hU'.roles agent) (utils_nodup hU.roles agent)).2 (fun u => by
      rw [mem_utils hU', mem_utils hU, h])).length_eq

end Net

/-- **C121** `expected_utility` of a game with utilities on another scale is the expected utility on that scale. -/
theorem C121_expected_utility {k c : Agent → Rat} {n n' : Net} (hU : n.Usable) (hU' : n'.Usable) (h : Rescaled (fun _ => False) k c n n')
    {pick pick' : Pick} {ord ord' : List Node → List Node} (hord : ∀ l, (ord l).Perm l) (hord' : ∀ l, (ord' l).Perm l) {agent : Agent} {r r' : Rat}
    (hr : (n.expectedUtility pick ord [] [] agent).2 = .ok r) (hr' : (n'.expectedUtility pick' ord' [] [] agent).2 = .ok r') :
    r' = k agent * r + c agent * n.utilityCount agent := by
  have hi : ∀ {m : Net}, m.IntOk [] := ⟨by simp, by simp⟩
  obtain ⟨us, e1, rfl⟩ := C43_expected_utility hU hord hi hr (by rw [PDo_do_pos hU hi]; norm_num)
  obtain ⟨us', e1', rfl⟩ := C43_expected_utility hU' hord' hi hr' (by rw [PDo_do_pos hU' hi]; norm_num)
  have := h.EU hU hU' agent
  unfold Net.EU at this
  rw [e1, e1'] at this
  exact this

/-- **C121** The maximal expected utility moves with the scale. -/
theorem C121_max {k c : Agent → Rat} {net net' : Net} (h : Rescaled (· ∈ net.m.decisions) k c net net') (hU : net.Usable) (hU' : net'.Usable)
    (hk : ∀ b, 0 < k b) (hb : net.BlindToUtility) {agent : Agent} {r : Rat} (hr : net.IsMaxEU agent r) :
    net'.IsMaxEU agent (k agent * r + c agent * net.utilityCount agent) := h.max hU hU' hk hb hr

/-- **C121** The equilibria, and with them the optimal policies, do not depend on the scale. -/
theorem C121_equilibria {k c : Agent → Rat} {n n' : Net} (hU : n.Usable) (hU' : n'.Usable) (h : Rescaled (fun _ => False) k c n n')
    (hk : ∀ b, 0 < k b) (hb : n.BlindToUtility) {decs : List Node} (hnd : decs.Nodup) (hd : ∀ d ∈ decs, d ∈ n.m.decisions) (agents : List Agent) :
    n'.NoGain decs agents ↔ n.NoGain decs agents := by
  have one : ∀ {k c : Agent → Rat} {n n' : Net}, n.Usable → n'.Usable → Rescaled (fun _ => False) k c n n' → (∀ b, 0 < k b) → n.BlindToUtility →
      (∀ d ∈ decs, d ∈ n.m.decisions) → n'.NoGain decs agents → n.NoGain decs agents := by
    intro k c n n' hU hU' h hk hb hd hN agent hag m hm om
    change OnlyRules n (n.decsOf decs agent) m at om
    obtain ⟨m', q1, q2, q3⟩ := h.carry hU hU' hb (S := n.decsOf decs agent) (hnd.filter _) (fun d h => hd d (mem_decsOf.1 h).1)
      (fun _ _ h => h.elim) hm om
    have hle := hN agent hag m' q1 (by
      have e : n'.decsOf decs agent = n.decsOf decs agent := by
        unfold decsOf
        simp only [h.roles]
      exact (show OnlyRules n' (n'.decsOf decs agent) m' by rw [e]; exact q2))
    rw [q3.EU hm q1, h.EU hU hU', om.count] at hle
    have := hk agent
    nlinarith
  refine ⟨one hU hU' h hk hb hd, one hU' hU (h.back (fun b => (hk b).ne')) (fun b => by simpa using hk b) (h.blind hb)
    (fun d q => (h.decs d).2 (hd d q))⟩

/-- **C121** `quantitative_voi` is multiplied by the unit of the utilities. -/
theorem C121_voi {k c : Agent → Rat} {cid cid' : Net} (hU : cid.Usable) (hU' : cid'.Usable) (h : Rescaled (· ∈ cid.m.decisions) k c cid cid')
    (hk : ∀ b, 0 < k b) (hb : cid.BlindToUtility) (hnames : NamesOk cid.g) (hnames' : NamesOk cid'.g)
    {d : Node} (hd : ∀ e b, cid.m.role e = .decision b ↔ e = d ∧ b = 0) {x : Node} (hx : ∀ b, cid.m.role x ≠ .utility b)
    {pick pick' : Pick} {tpick tpick' : List Node → Nat} {ord setOrd ord' setOrd' : List Node → List Node} {rnd1 rnd2 rnd1' rnd2' : Nat}
    (hord : ∀ l, (ord l).Perm l) (hset : ∀ l, (setOrd l).Perm l) (hord' : ∀ l, (ord' l).Perm l) (hset' : ∀ l, (setOrd' l).Perm l) {r r' : Rat}
    (hr : quantitativeVoi pick tpick ord setOrd rnd1 rnd2 cid d x = .ok r)
    (hr' : quantitativeVoi pick' tpick' ord' setOrd' rnd1' rnd2' cid' d x = .ok r') : r' = k 0 * r := by
  obtain ⟨r1, r2, rfl, -, ⟨n1, o1⟩, m1, ⟨n2, o2⟩, m2⟩ := C58_voi_single_decision hU hnames hd hord hset hr
  obtain ⟨r1', r2', rfl, -, ⟨n1', o1'⟩, m1', ⟨n2', o2'⟩, m2'⟩ := C58_voi_single_decision hU' hnames' (fun e b => by rw [h.roles]; exact hd e b) hord' hset' hr'
  have hdec : ∀ {n : Net}, SameWorld (· ∈ cid.m.decisions) cid n → ∀ v, v ∈ n.m.decisions ↔ v ∈ cid.m.decisions := fun hw v => by
    rw [decisions_role, decisions_role]
    simp only [hw.roles]
  have ver : ∀ {n n' : Net}, n.Usable → n'.Usable → SameWorld (· ∈ cid.m.decisions) cid n → SameWorld (· ∈ cid'.m.decisions) cid' n' →
      (∀ u v, n'.g.Edge u v ↔ n.g.Edge u v) → Rescaled (· ∈ n.m.decisions) k c n n' := by
    intro n n' _ _ w w' he
    refine h.versions w.nodes w'.nodes he (fun v => by rw [w'.roles, h.roles, w.roles]) (fun v b => by rw [w.roles]) w.outcomes w'.outcomes
      (fun v hv => (hdec w v).2 hv) (fun v hv hn a ha => w.kernels v hv (fun q => hn ((hdec w v).2 q)) a ha) (fun v hv hn a ha =>
        w'.kernels v hv (fun q => hn ((hdec w v).2 ((h.decs v).1 q))) a ha)
  have k1 := (ver o1.usable o1'.usable o1.same o1'.same (fun u v => by rw [o1'.edges, o1.edges, h.edges])).max o1.usable o1'.usable hk
    (fun d' a hd' u hu b => by
      rw [o1.same.roles] at hd' ⊢
      rcases (o1.edges u d').1 hu with hu | ⟨rfl, _⟩
      · exact hb d' a hd' u hu b
      · exact hx b) (m1 n1 o1)
  have k2 := (ver o2.usable o2'.usable o2.same o2'.same (fun u v => by rw [o2'.edges, o2.edges, h.edges])).max o2.usable o2'.usable hk
    (fun d' a hd' u hu b => by
      rw [o2.same.roles] at hd' ⊢
      exact hb d' a hd' u ((o2.edges u d').1 hu).1 b) (m2 n2 o2)
  have e1 := (m1' n1' o1').unique k1
  have e2 := (m2' n2' o2').unique k2
  rw [count_roles hU o1.usable 0 (fun v => by rw [o1.same.roles])] at e1
  rw [count_roles hU o2.usable 0 (fun v => by rw [o2.same.roles])] at e2
  rw [e1, e2]
  ring

/-- **C121** So is `quantitative_voc`. -/
theorem C121_voc {k c : Agent → Rat} {cid cid' : Net} (hU : cid.Usable) (hU' : cid'.Usable) (h : Rescaled (· ∈ cid.m.decisions) k c cid cid')
    (hk : ∀ b, 0 < k b) (hb : cid.BlindToUtility) (hnames : NamesOk cid.g) (hnames' : NamesOk cid'.g)
    (hone : ∀ e b, cid.m.role e = .decision b → b = 0) (hrec : cid.m.NoRelianceCycle cid.m.decisions) (hrec' : cid'.m.NoRelianceCycle cid'.m.decisions)
    {x : Node} (hx : cid.m.role x = .chance) (hxu : ∀ u, cid.g.Edge u x → ∀ b, cid.m.role u ≠ .utility b)
    (hcon : ∀ n, Controlling cid x n ∨ Controlling cid' x n → n.m.NoRelianceCycle n.m.decisions)
    {pick pick' : Pick} {tpick tpick' : List Node → Nat} {ord setOrd ord' setOrd' : List Node → List Node} {rnd1 rnd2 rnd1' rnd2' : Nat}
    (hord : ∀ l, (ord l).Perm l) (hset : ∀ l, (setOrd l).Perm l) (hord' : ∀ l, (ord' l).Perm l) (hset' : ∀ l, (setOrd' l).Perm l) {r r' : Rat}
    {after after' : Net} (hr : quantitativeVoc pick tpick ord setOrd rnd1 rnd2 cid x = (after, .ok r))
    (hr' : quantitativeVoc pick' tpick' ord' setOrd' rnd1' rnd2' cid' x = (after', .ok r')) : r' = k 0 * r := by
  obtain ⟨-, r1, r2, rfl, m1, -, ⟨n, o⟩, hm⟩ := C58_quantitative_voc hU hnames hone hrec hx hord hset hr
  obtain ⟨-, r1', r2', rfl, m1', -, ⟨n', o'⟩, hm'⟩ := C58_quantitative_voc hU' hnames' (fun e b => by rw [h.roles]; exact hone e b) hrec'
    (by rw [h.roles]; exact hx) hord' hset' hr'
  have m2 := (hm (fun n hn => hcon n (.inl hn))).2 n o
  have m2' := (hm' (fun n hn => hcon n (.inr hn))).2 n' o'
  have hdec : ∀ v, v ∈ n.m.decisions ↔ v = x ∨ v ∈ cid.m.decisions := fun v => by
    rw [decisions_role, decisions_role, o.roles]
    by_cases e : v = x <;> simp [e]
  have hut : ∀ v b, n.m.role v = .utility b ↔ cid.m.role v = .utility b := fun v b => by
    rw [o.roles]
    by_cases e : v = x
    · subst e; simp [hx]
    · simp [e]
  have hv : Rescaled (· ∈ n.m.decisions) k c n n' := by
    refine h.versions o.nodes o'.nodes (fun u v => by rw [o'.edges, o.edges, h.edges]) (fun v => by rw [o'.roles, o.roles, h.roles]) hut o.outcomes
      o'.outcomes (fun v hv => (hdec v).2 (.inr hv)) (fun v hv hn a ha => ?_) (fun v hv hn a ha => ?_)
    · rw [hdec, not_or] at hn
      exact o.kernels v hv hn.2 hn.1 a ha
    · rw [hdec, not_or] at hn
      exact o'.kernels v hv (fun q => hn.2 ((h.decs v).1 q)) hn.1 a ha
  have k1 := h.max hU hU' hk hb m1
  have k2 := hv.max o.usable o'.usable hk (fun d a hd u hu b => by
    rw [o.edges] at hu
    rw [Ne, hut]
    rw [o.roles] at hd
    by_cases e : d = x
    · subst e
      exact hxu u hu b
    · rw [if_neg e] at hd
      exact hb d a hd u hu b) m2
  have e1 := m1'.unique k1
  have e2 := m2'.unique k2
  rw [count_roles hU o.usable 0 (fun v => hut v 0)] at e2
  rw [e1, e2]
  ring

namespace ExW

/-- the utility of `ExW.net`, doubled and increased by 1 -/
def utilityR : Func := fun pv => .ok (.val (if pv "M" = pv "A" then 7 else 1))

def relsR : List (Node × Rel) :=
  [("W", .dist [(0, some (1 / 3)), (1, some (2 / 3))]), ("A", .dist [(0, some (1 / 4)), (1, some (3 / 4))]), ("X", .func (copy "W")), ("D", .seq [0, 1]),
    ("M", .func (copy "D")), ("U", .func utilityR)]

def netR : Net := ((Net.mk exInfo [] [] [] Macid.new).addCpds relsR).1

theorem honestR : ∀ p ∈ relsR, Honest p.2 := by
  intro p hp
  simp only [relsR, List.mem_cons, List.not_mem_nil, or_false] at hp
  rcases hp with rfl | rfl | rfl | rfl | rfl | rfl
  · trivial
  · trivial
  · intro pv; simp [copy]
  · trivial
  · intro pv; simp [copy]
  · intro pv; simp [utilityR]

theorem usableR : netR.Usable ∧ netR.m = exInfo :=
  usable_of_build (edges := edges) (ad := [(0, ["D"])]) (au := [(0, ["U"])]) (rels := relsR) (by decide +kernel)
    (by rw [← show ((Net.mk exInfo [] [] [] Macid.new).addCpds relsR).2 = .ok () by decide +kernel]; rfl) honestR (by decide +kernel)

/-- the assignment that gives the nodes the listed values -/
def assignOf (vs : List Node) (xs : List Outcome) : Assign := fun v => xs.getD (vs.idxOf v) 0

theorem assignOf_map {vs : List Node} (a : Assign) {v : Node} (hv : v ∈ vs) : assignOf vs (vs.map a) v = a v := by
  have := List.idxOf_lt_length_iff.2 hv
  simp [assignOf, List.getD, this]

theorem rescaled : Rescaled (fun _ => False) (fun _ => 2) (fun _ => 1) (net (1 / 3)) netR := by
  have hg : (net (1 / 3)).g = exInfo.g := congrArg Macid.g usable.2
  have hg2 : netR.g = exInfo.g := congrArg Macid.g usableR.2
  refine ⟨fun v => by rw [hg, hg2], fun u v => by rw [hg, hg2], fun v => by rw [usable.2, usableR.2], ?_, ?_⟩
  · decide +kernel
  · intro v hv _ a ha
    have hp : exInfo.g.nodes.map a ∈ product (exInfo.g.nodes.map (net (1 / 3)).dom) := by
      rw [mem_product, List.forall₂_map_left_iff, List.forall₂_map_right_iff, List.forall₂_same]
      exact fun w hw => ha w (hg ▸ hw)
    have key : ∀ v ∈ exInfo.g.nodes, ∀ xs ∈ product (exInfo.g.nodes.map (net (1 / 3)).dom),
        netR.kernel v ((net (1 / 3)).onScales (fun _ => 2) (fun _ => 1) (assignOf exInfo.g.nodes xs)) = (net (1 / 3)).kernel v (assignOf exInfo.g.nodes xs) := by
      decide +kernel
    have hn : ∀ u, u = v ∨ (net (1 / 3)).g.Edge u v → u ∈ exInfo.g.nodes := by
      rintro u (rfl | hu)
      · exact hg ▸ hv
      · exact hg ▸ (usable.1.good.wf.edgeNodes u v hu).1
    have k := key v (hg ▸ hv) _ hp
    rw [kernel_depends usable.1.good hv _ a (fun u hu => assignOf_map a (hn u hu)),
      kernel_depends usableR.1.good (by rw [hg2, ← hg]; exact hv) _ ((net (1 / 3)).onScales (fun _ => 2) (fun _ => 1) a) (fun u hu => by
        rw [hg2, ← hg] at hu
        simp only [onScales]
        rw [assignOf_map a (hn u hu)])] at k
    exact k

end ExW

/-- The hypotheses are met: doubling the utility and adding 1 doubles the value of information. -/
theorem C121_example : Rescaled (fun _ => False) (fun _ => 2) (fun _ => 1) (ExW.net (1 / 3)) ExW.netR ∧ ExW.netR.Usable ∧
    (ExW.net (1 / 3)).BlindToUtility ∧
    quantitativeVoi (fun _ => 0) (fun _ => 0) id id 0 0 (ExW.net (1 / 3)) "D" "A" = .ok (3 / 4) ∧
    quantitativeVoi (fun _ => 0) (fun _ => 0) id id 0 0 ExW.netR "D" "A" = .ok (3 / 2) := by
  refine ⟨ExW.rescaled, ExW.usableR.1, ?_, by decide +kernel, by decide +kernel⟩
  have hg : (ExW.net (1 / 3)).g = exInfo.g := congrArg Macid.g ExW.usable.2
  have key : ∀ e ∈ exInfo.g.edges, ∀ x ∈ exInfo.utilityAgent.keys, e.1 ≠ x := by decide +kernel
  intro d a hd u hu b hb
  rw [hg] at hu
  rw [role_utility ExW.usable.1.roles, ExW.usable.2] at hb
  exact key (u, d) hu u (Dict.mem_keys.2 ⟨b, hb⟩) rfl

end Verif

import Verif.Spec.Values
import Verif.Props.WholeGame
import Verif.Props.Policies
import Verif.Props.Games

/-!
# Values of equilibria (C120)
-/

namespace Verif

open Graph Relation Macid Net

namespace Net

theorem OnlyRules.same {n n' : Net} {ds : List Node} (h : OnlyRules n ds n') : SameGame n n' :=
  ⟨by rw [h.g], fun u v => by rw [h.g], fun v _ => by rw [h.domain], fun v => by rw [h.m]⟩

theorem SameGame.symm' {n n' : Net} (h : SameGame n n') : SameGame n' n :=
  ⟨h.nodes.symm, fun u v => (h.edges u v).symm, fun v hv => (h.domain v (h.nodes ▸ hv)).symm, fun v => (h.roles v).symm⟩

theorem SameGame.trans' {n n' n'' : Net} (h : SameGame n n') (h' : SameGame n' n'') : SameGame n n'' :=
  ⟨h'.nodes.trans h.nodes, fun u v => (h'.edges u v).trans (h.edges u v), fun v hv => (h'.domain v (by rw [h.nodes]; exact hv)).trans (h.domain v hv),
    fun v => (h'.roles v).trans (h.roles v)⟩

theorem SameGame.dom' {n n' : Net} (h : SameGame n n') {v : Node} (hv : v ∈ n.g.nodes) : n'.dom v = n.dom v := by
  unfold dom
  rw [h.domain v hv]

theorem SameGame.inDom' {n n' : Net} (h : SameGame n n') (a : Assign) : n'.InDom a ↔ n.InDom a := by
  unfold InDom
  rw [h.nodes]
  exact forall₂_congr (fun v hv => by rw [h.dom' hv])

/-- expected utility depends on nothing but the game and the probabilities -/
theorem SameGame.EU {n n' : Net} (hU : n.Usable) (hU' : n'.Usable) (h : SameGame n n')
    (hk : ∀ v ∈ n.g.nodes, ∀ a, n.InDom a → n'.kernel v a = n.kernel v a) (agent : Agent) : n'.EU agent = n.EU agent := by
  rw [EU_eq hU agent, EU_eq hU' agent]
  have hp : (n'.utils agent).Perm (n.utils agent) :=
    (List.perm_ext_iff_of_nodup (utils_nodup hU'.roles agent) (utils_nodup hU.roles agent)).2 (fun u => by
      rw [mem_utils hU', mem_utils hU, h.roles])
  have e : (fun a : Assign => ((((n'.m.agentUtilities.get? agent).getD []).map a).sum)) =
      fun a => ((((n.m.agentUtilities.get? agent).getD []).map a).sum) := by
    funext a
    exact (hp.map a).sum_eq
  rw [e]
  show sumOver n'.dom n'.g.nodes _ _ = sumOver n.dom n.g.nodes _ _
  rw [h.nodes, sumOver_dom_perm (dom := n'.dom) (dom' := n.dom) (fun v hv => by rw [h.dom' hv])]
  apply sumOver_congr
  intro b hb _
  congr 1
  show (n'.g.nodes.map (fun v => n'.kernel v b)).prod = (n.g.nodes.map (fun v => n.kernel v b)).prod
  rw [h.nodes]
  exact congrArg List.prod (List.map_congr_left (fun v hv => hk v hv b hb))

/-- the rules of one network can be put into another one of the same shape -/
theorem blend {n1 n2 : Net} (h1 : n1.Usable) (h2 : n2.Usable) (h : SameGame n1 n2) {S : List Node} (hn : S.Nodup) (hS : ∀ d ∈ S, d ∈ n1.g.nodes) :
    ∃ M, M.Usable ∧ OnlyRules n1 S M ∧ ∀ d ∈ S, ∀ a, M.kernel d a = n2.kernel d a := by
  classical
  have hc : ∀ d ∈ S, ∃ c, n2.cpds.get? d = some c := fun d hd => by
    obtain ⟨c, hc, _⟩ := h2.good.complete d (by rw [h.nodes]; exact hS d hd)
    exact ⟨c, hc⟩
  rcases S.eq_nil_or_concat with rfl | ⟨_, e0, _⟩
  · exact ⟨n1, h1, .rfl' _ _, by simp⟩
  obtain ⟨c0, _⟩ := hc e0 (by simp [*])
  haveI : Inhabited Cpd := ⟨c0⟩
  let f : Node → Cpd := fun d => (n2.cpds.get? d).getD default
  have hf : ∀ d ∈ S, n2.cpds.get? d = some (f d) := fun d hd => by
    obtain ⟨c, hc⟩ := hc d hd
    simp only [f, hc, Option.getD_some]
  have hvar : ∀ d ∈ S, (f d).var = d := fun d hd => (h2.good.fits d (f d) (hf d hd)).var
  have hnames : (S.map f).map (·.var) = S := by
    rw [List.map_map]
    conv_rhs => rw [← List.map_id S]
    exact List.map_congr_left (fun d hd => hvar d hd)
  have hev : ∀ d ∈ S, ∀ p ∈ (f d).evidence, n1.domain.get? p = n2.domain.get? p := fun d hd p hp => by
    have := ((h2.good.fits d (f d) (hf d hd)).parents p).1 hp
    exact (h.domain p (h1.good.wf.edgeNodes p d ((h.edges p d).1 this)).1).symm
  obtain ⟨M, k1, k2, k3, k4⟩ := addPolicy_usable (S.map f) h1 ⟨by rw [hnames]; exact hn, by
    intro k hk
    obtain ⟨d, hd, rfl⟩ := List.mem_map.1 hk
    rw [hvar d hd]
    refine ⟨hS d hd, (accept_good h2.good (hf d hd)).transfer h2.good h1.good (fun p => (h.edges p d).symm) (fun p hp => ?_), fun a ha => ?_⟩
    · rcases hp with rfl | hp
      · exact (h.domain _ (hS _ hd)).symm
      · exact (h.domain p (h1.good.wf.edgeNodes p d ((h.edges p d).1 hp)).1).symm
    · have := h2.normalised d (by rw [h.nodes]; exact hS d hd) a ((h.inDom' a).2 ha)
      have hkd : ∀ b : Assign, (∀ p ∈ (f d).evidence, b p = a p) →
          n2.kernel d b = ((f d).prob n1.domain ((f d).evidence.map a) (b d)).getD 0 := by
        intro b hb
        unfold kernel
        rw [hf d hd]
        simp only
        rw [List.map_congr_left hb, prob_congr (hev d hd)]
      have hself : ∀ x, ∀ p ∈ (f d).evidence, Assign.upd a d x p = a p := fun x p hp => by
        have hne : p ≠ d := fun e => h2.good.wf.acyclic d (.single (by
          have := ((h2.good.fits d (f d) (hf d hd)).parents p).1 hp
          rwa [e] at this))
        simp [Assign.upd, hne]
      rw [← h.dom' (hS d hd)]
      refine ⟨by rw [← hkd a (fun _ _ => rfl)]; exact this.1, ?_⟩
      rw [← this.2]
      refine congrArg List.sum (List.map_congr_left (fun x _ => ?_))
      rw [hkd _ (hself x)]
      simp [Assign.upd]⟩
  rw [hnames] at k3
  refine ⟨M, k2, k3, fun d hd a => ?_⟩
  have := k4 (f d) (List.mem_map.2 ⟨d, hd, rfl⟩)
  rw [hvar d hd] at this
  unfold kernel
  rw [this, hf d hd]
  simp only
  rw [k3.domain, prob_congr (hev d hd)]

theorem mem_decsOf {net : Net} {decs : List Node} {agent : Agent} {d : Node} :
    d ∈ net.decsOf decs agent ↔ d ∈ decs ∧ net.m.role d = .decision agent := by
  simp [decsOf]

theorem decsOf_same {n n' : Net} (h : SameGame n n') (decs : List Node) (agent : Agent) : n'.decsOf decs agent = n.decsOf decs agent := by
  unfold decsOf
  simp only [h.roles]

theorem noGain_iff {n : Net} {decs : List Node} {agents : List Agent} : n.NoGain decs agents ↔
    ∀ agent ∈ agents, ∀ n', n'.Usable → OnlyRules n (n.decsOf decs agent) n' → n'.EU agent ≤ n.EU agent := Iff.rfl

/-- no agent of an equilibrium does better in a network that plays like it except for the agent's own decisions -/
theorem NoGain.reply {n k : Net} (hU : n.Usable) (hk : k.Usable) (hs : SameGame n k) {decs : List Node} (hnd : decs.Nodup)
    (hd : ∀ d ∈ decs, d ∈ n.g.nodes) {agents : List Agent} (h : n.NoGain decs agents) {agent : Agent} (ha : agent ∈ agents)
    (hp : ∀ v ∈ n.g.nodes, v ∉ n.decsOf decs agent → ∀ a, n.InDom a → k.kernel v a = n.kernel v a) : k.EU agent ≤ n.EU agent := by
  obtain ⟨M, m1, m2, m3⟩ := blend hU hk hs (S := n.decsOf decs agent) (hnd.filter _) (fun d h => hd d (mem_decsOf.1 h).1)
  rw [SameGame.EU m1 hk (m2.same.symm'.trans' hs) ?_ agent]
  · exact noGain_iff.1 h agent ha M m1 m2
  · intro v hv a hia
    rw [m2.g] at hv
    by_cases hvd : v ∈ n.decsOf decs agent
    · rw [m3 v hvd]
    · rw [m2.kernel hvd, hp v hv hvd a ((m2.inDom a).1 hia)]

end Net

/-- **C120** When all decisions belong to one agent, the equilibria are the optimal policies: nothing, mixed rules included, is better. -/
theorem C120_one_agent {net : Net} {decs : List Node} {a : Agent} (hone : ∀ d ∈ decs, net.m.role d = .decision a) {n : Net}
    (ho : OnlyRules net decs n) (h : n.NoGain decs [a]) {n' : Net} (hU' : n'.Usable) (ho' : OnlyRules net decs n') : n'.EU a ≤ n.EU a := by
  refine noGain_iff.1 h a (by simp) n' hU' ?_
  have e : n.decsOf decs a = decs := by
    unfold decsOf
    rw [List.filter_eq_self]
    intro d hd
    rw [ho.m]
    simpa using hone d hd
  rw [e]
  exact ⟨ho'.m.trans ho.m.symm, ho'.base.trans ho.base.symm, ho'.domain.trans ho.domain.symm,
    fun w hw => (ho'.cpds w hw).trans (ho.cpds w hw).symm, fun w hw => (ho'.rels w hw).trans (ho.rels w hw).symm⟩

/-- **C120** Two agents whose utilities always add up to the same number: all equilibria give each agent the same, and their rules can be
exchanged - the rules of `a` from one equilibrium and of `b` from another form an equilibrium. -/
theorem C120_zero_sum {net : Net} {decs : List Node} (hnd : decs.Nodup) (hmem : ∀ d ∈ decs, d ∈ net.g.nodes) {a b : Agent} (hab : a ≠ b)
    (htwo : ∀ d ∈ decs, net.m.role d = .decision a ∨ net.m.role d = .decision b) {c : Rat} (hsum : net.ConstantSum decs a b c) {n1 n2 : Net}
    (h1 : n1.Usable) (h2 : n2.Usable) (o1 : OnlyRules net decs n1) (o2 : OnlyRules net decs n2) (e1 : n1.NoGain decs [a, b])
    (e2 : n2.NoGain decs [a, b]) :
    n1.EU a = n2.EU a ∧ n1.EU b = n2.EU b ∧
    (∃ M, M.Usable ∧ OnlyRules net decs M ∧ M.PlaysLike n1 (net.decsOf decs a) ∧ M.PlaysLike n2 (net.decsOf decs b)) ∧
    ∀ M, M.Usable → OnlyRules net decs M → M.PlaysLike n1 (net.decsOf decs a) → M.PlaysLike n2 (net.decsOf decs b) →
      M.NoGain decs [a, b] ∧ M.EU a = n1.EU a ∧ M.EU b = n1.EU b := by
  have hsame : ∀ {n n' : Net}, OnlyRules net decs n → OnlyRules net decs n' → SameGame n n' := fun o o' => o.same.symm'.trans' o'.same
  have hg : ∀ {n : Net}, OnlyRules net decs n → n.g.nodes = net.g.nodes := fun o => by rw [o.g]
  have hin : ∀ {n : Net}, OnlyRules net decs n → ∀ x, n.InDom x ↔ net.InDom x := fun o x => o.inDom x
  have hoth : ∀ {n n' : Net}, OnlyRules net decs n → OnlyRules net decs n' → ∀ v ∉ decs, ∀ x, n'.kernel v x = n.kernel v x :=
    fun o o' v hv x => by rw [o'.kernel hv, o.kernel hv]
  have hsplit : ∀ d ∈ decs, d ∈ net.decsOf decs a ∨ d ∈ net.decsOf decs b := fun d hd =>
    (htwo d hd).imp (fun h => mem_decsOf.2 ⟨hd, h⟩) (fun h => mem_decsOf.2 ⟨hd, h⟩)
  -- an agent does not gain over an equilibrium whose rules the other agent follows
  have reply : ∀ {n k : Net}, n.Usable → k.Usable → OnlyRules net decs n → OnlyRules net decs k → n.NoGain decs [a, b] →
      (k.PlaysLike n (net.decsOf decs b) → k.EU a ≤ n.EU a) ∧ (k.PlaysLike n (net.decsOf decs a) → k.EU b ≤ n.EU b) := by
    intro n k hn hk o o' hN
    constructor
    · intro hp
      refine NoGain.reply hn hk (hsame o o') hnd (fun d hd => by rw [hg o]; exact hmem d hd) hN (by simp) (fun v hv hvd x hx => ?_)
      rw [decsOf_same o.same] at hvd
      by_cases hd : v ∈ decs
      · exact hp v ((hsplit v hd).resolve_left hvd) x (by rw [hin o']; rwa [hin o] at hx)
      · exact hoth o o' v hd x
    · intro hp
      refine NoGain.reply hn hk (hsame o o') hnd (fun d hd => by rw [hg o]; exact hmem d hd) hN (by simp) (fun v hv hvd x hx => ?_)
      rw [decsOf_same o.same] at hvd
      by_cases hd : v ∈ decs
      · exact hp v ((hsplit v hd).resolve_right hvd) x (by rw [hin o']; rwa [hin o] at hx)
      · exact hoth o o' v hd x
  -- the value of the exchanged rules
  have value : ∀ {n1 n2 M : Net}, n1.Usable → n2.Usable → OnlyRules net decs n1 → OnlyRules net decs n2 → n1.NoGain decs [a, b] →
      n2.NoGain decs [a, b] → M.Usable → OnlyRules net decs M → M.PlaysLike n1 (net.decsOf decs a) → M.PlaysLike n2 (net.decsOf decs b) →
      n1.EU a ≤ M.EU a ∧ M.EU a ≤ n2.EU a := by
    intro n1 n2 M h1 h2 o1 o2 e1 e2 hM oM p1 p2
    have k1 := (reply h1 hM o1 oM e1).2 p1
    have k2 := (reply h2 hM o2 oM e2).1 p2
    have s1 := hsum n1 h1 o1
    have sM := hsum M hM oM
    exact ⟨by linarith, k2⟩
  have disj : ∀ d, d ∈ net.decsOf decs a → d ∉ net.decsOf decs b := by
    intro d hd q
    have := (mem_decsOf.1 hd).2.symm.trans (mem_decsOf.1 q).2
    simp only [Role.decision.injEq] at this
    exact hab this
  have exch : ∀ {n1 n2 : Net}, n1.Usable → n2.Usable → OnlyRules net decs n1 → OnlyRules net decs n2 →
      ∃ M, M.Usable ∧ OnlyRules net decs M ∧ M.PlaysLike n1 (net.decsOf decs a) ∧ M.PlaysLike n2 (net.decsOf decs b) := by
    intro n1 n2 h1 h2 o1 o2
    obtain ⟨M, m1, m2, m3⟩ := blend h1 h2 (hsame o1 o2) (S := net.decsOf decs b) (hnd.filter _)
      (fun d h => by rw [hg o1]; exact hmem d (mem_decsOf.1 h).1)
    refine ⟨M, m1, o1.trans m2 (fun _ h => h) (fun d h => (mem_decsOf.1 h).1), fun d hd x _ => ?_, fun d hd x _ => m3 d hd x⟩
    rw [m2.kernel (disj d hd)]
  obtain ⟨M, m1, m2, m3, m4⟩ := exch h1 h2 o1 o2
  obtain ⟨M', m1', m2', m3', m4'⟩ := exch h2 h1 o2 o1
  have v1 := value h1 h2 o1 o2 e1 e2 m1 m2 m3 m4
  have v2 := value h2 h1 o2 o1 e2 e1 m1' m2' m3' m4'
  have ea : n1.EU a = n2.EU a := le_antisymm (v1.1.trans v1.2) (v2.1.trans v2.2)
  have s1 := hsum n1 h1 o1
  have s2 := hsum n2 h2 o2
  refine ⟨ea, by linarith, ⟨M, m1, m2, m3, m4⟩, fun K k1 k2 k3 k4 => ?_⟩
  have v3 := value h1 h2 o1 o2 e1 e2 k1 k2 k3 k4
  have sK := hsum K k1 k2
  have va : K.EU a = n1.EU a := le_antisymm (v3.2.trans ea.symm.le) v3.1
  have vb : K.EU b = n1.EU b := by linarith
  refine ⟨noGain_iff.2 (fun agent hag K' hK' oK' => ?_), va, vb⟩
  rw [decsOf_same k2.same] at oK'
  have oN : OnlyRules net decs K' := k2.trans oK' (fun _ h => h) (fun d h => (mem_decsOf.1 h).1)
  have hx : ∀ x, K'.InDom x → K.InDom x := fun x h => (hin k2 x).2 ((hin oN x).1 h)
  simp only [List.mem_cons, List.not_mem_nil, or_false] at hag
  rcases hag with rfl | rfl
  · rw [va, ea]
    refine (reply h2 hK' o2 oN e2).1 (fun d hd x h => ?_)
    rw [oK'.kernel (fun q => disj d q hd)]
    exact k4 d hd x (hx x h)
  · rw [vb]
    refine (reply h1 hK' o1 oN e1).2 (fun d hd x h => ?_)
    rw [oK'.kernel (disj d hd)]
    exact k3 d hd x (hx x h)

/-- **C120** The value of an equilibrium of such a game is what `a` can secure: the rules of `a` give at least it whatever `b` does, and
no rules of `a` give more against every `b`. -/
theorem C120_security {net : Net} {decs : List Node} (hnd : decs.Nodup) (hmem : ∀ d ∈ decs, d ∈ net.g.nodes) {a b : Agent} (hab : a ≠ b)
    (htwo : ∀ d ∈ decs, net.m.role d = .decision a ∨ net.m.role d = .decision b) {c : Rat} (hsum : net.ConstantSum decs a b c) {n : Net}
    (hn : n.Usable) (o : OnlyRules net decs n) (e : n.NoGain decs [a, b]) :
    (∀ k, k.Usable → OnlyRules net decs k → k.PlaysLike n (net.decsOf decs a) → n.EU a ≤ k.EU a) ∧
    ∀ k, k.Usable → OnlyRules net decs k →
      ∃ k', k'.Usable ∧ OnlyRules k (net.decsOf decs b) k' ∧ k'.PlaysLike k (net.decsOf decs a) ∧ k'.EU a ≤ n.EU a := by
  have hsame : ∀ {n n' : Net}, OnlyRules net decs n → OnlyRules net decs n' → SameGame n n' := fun o o' => o.same.symm'.trans' o'.same
  have hg : ∀ {n : Net}, OnlyRules net decs n → n.g.nodes = net.g.nodes := fun o => by rw [o.g]
  have disj : ∀ d, d ∈ net.decsOf decs a → d ∉ net.decsOf decs b := by
    intro d hd q
    have := (mem_decsOf.1 hd).2.symm.trans (mem_decsOf.1 q).2
    simp only [Role.decision.injEq] at this
    exact hab this
  constructor
  · intro k hk ok p
    have := NoGain.reply hn hk (hsame o ok) hnd (fun d hd => by rw [hg o]; exact hmem d hd) e (agent := b) (by simp) (fun v hv hvd x hx => by
      rw [decsOf_same o.same] at hvd
      by_cases hd : v ∈ decs
      · exact p v (mem_decsOf.2 ⟨hd, (htwo v hd).resolve_right (fun q => hvd (mem_decsOf.2 ⟨hd, q⟩))⟩) x ((ok.inDom x).2 ((o.inDom x).1 hx))
      · rw [ok.kernel hd, o.kernel hd])
    have s1 := hsum n hn o
    have s2 := hsum k hk ok
    linarith
  · intro k hk ok
    obtain ⟨M, m1, m2, m3⟩ := blend hk hn (hsame ok o) (S := net.decsOf decs b) (hnd.filter _)
      (fun d h => by rw [hg ok]; exact hmem d (mem_decsOf.1 h).1)
    have oM : OnlyRules net decs M := ok.trans m2 (fun _ h => h) (fun d h => (mem_decsOf.1 h).1)
    refine ⟨M, m1, m2, fun d hd x _ => by rw [m2.kernel (disj d hd)], ?_⟩
    refine NoGain.reply hn m1 (hsame o oM) hnd (fun d hd => by rw [hg o]; exact hmem d hd) e (by simp) (fun v hv hvd x hx => ?_)
    rw [decsOf_same o.same] at hvd
    by_cases hd : v ∈ decs
    · exact m3 v (mem_decsOf.2 ⟨hd, (htwo v hd).resolve_left (fun q => hvd (mem_decsOf.2 ⟨hd, q⟩))⟩) x
    · rw [oM.kernel hd, o.kernel hd]

/-- **C120** The profiles `get_ne` returns for a two-agent game of constant sum are worth the same to each agent. -/
theorem C120_get_ne {net : Net} (hU : net.Usable) (hnames : NamesOk net.g) {pick : Pick} {tpick : List Node → Nat}
    {ord setOrd : List Node → List Node} (hord : ∀ l, (ord l).Perm l) (hset : ∀ l, (setOrd l).Perm l) {agentOrd : List Agent → List Agent}
    (hao : ∀ l, (agentOrd l).Perm l) {run : Efg → Solver → Py (List Behavior)} {conv : Behavior → Behavior} (hrun : SoundSolvers run conv)
    {override : Option String}
    (hm : ∀ v ∈ net.g.nodes, ¬ net.m.InGame net.m.decisions v → (∃ w, net.g.Edge v w ∧ net.m.InGame net.m.decisions w) →
      net.Own v ∧ (net.dom v).Pairwise (· ≤ ·))
    (hu : ∀ d ∈ net.m.decisions, ∃ a u, net.m.role d = .decision a ∧ net.m.role u = .utility a ∧ net.g.Desc d u)
    (hleaf : ∀ u a, net.m.role u = .utility a → ∀ w, ¬ net.g.Edge u w)
    (hj : ∀ sg, createSubgame pick setOrd net net.m.decisions = .ok sg → Joined sg.g ∧ sg.Distinct net.m.decisions)
    {found : List (List Cpd)} (h : getNe pick tpick ord setOrd agentOrd run conv override net = .ok found) {a b : Agent} (hab : a ≠ b)
    (htwo : ∀ d ∈ net.m.decisions, net.m.role d = .decision a ∨ net.m.role d = .decision b) {c : Rat}
    (hsum : net.ConstantSum net.m.decisions a b c) :
    ∀ q1 ∈ found, ∀ q2 ∈ found, ∃ n1 n2, net.addPolicy q1 = (n1, .ok ()) ∧ net.addPolicy q2 = (n2, .ok ()) ∧
      n1.EU a = n2.EU a ∧ n1.EU b = n2.EU b ∧ n1.EU a + n1.EU b = c := by
  have key : ∀ q ∈ found, ∃ n, net.addPolicy q = (n, .ok ()) ∧ n.Usable ∧ OnlyRules net net.m.decisions n ∧ n.NoGain net.m.decisions [a, b] := by
    intro q hq
    obtain ⟨h1, n, h2, h3, h4, -⟩ := C78_get_ne_in_sg hU hnames hord hset hao hrun hU.roles.dec.nodeKeys (fun d hd => hd) hm hu hleaf hj h q hq
    obtain ⟨-, n', k2, -, k3⟩ := C78_get_ne hU hnames hord hset hao hrun hm hu hleaf hj h q hq
    rw [h2] at k2
    cases k2
    refine ⟨n, h2, h3, h4, noGain_iff.2 (fun agent _ n' u1 u2 => k3 agent n' u1 ?_)⟩
    rw [decsOf_same h4.same] at u2
    exact u2
  intro q1 hq1 q2 hq2
  obtain ⟨n1, a1, a2, a3, a4⟩ := key q1 hq1
  obtain ⟨n2, b1, b2, b3, b4⟩ := key q2 hq2
  have hmem : ∀ d ∈ net.m.decisions, d ∈ net.g.nodes := fun d hd => hU.roles.nodes d (Or.inl hd)
  obtain ⟨v1, v2, -⟩ := C120_zero_sum hU.roles.dec.nodeKeys hmem hab htwo hsum a2 b2 a3 b3 a4 b4
  exact ⟨n1, n2, a1, b1, v1, v2, hsum n1 a2 a3⟩

/-- **C120** In a game of one agent the profiles `get_ne` returns are worth what the policies `optimal_pure_policies` returns are worth. -/
theorem C120_agrees_with_optimal {net : Net} (hU : net.Usable) (hnames : NamesOk net.g) {pick : Pick} {tpick : List Node → Nat}
    {ord setOrd : List Node → List Node} (hord : ∀ l, (ord l).Perm l) (hset : ∀ l, (setOrd l).Perm l) {agentOrd : List Agent → List Agent}
    (hao : ∀ l, (agentOrd l).Perm l) {run : Efg → Solver → Py (List Behavior)} {conv : Behavior → Behavior} (hrun : SoundSolvers run conv)
    {override : Option String}
    (hm : ∀ v ∈ net.g.nodes, ¬ net.m.InGame net.m.decisions v → (∃ w, net.g.Edge v w ∧ net.m.InGame net.m.decisions w) →
      net.Own v ∧ (net.dom v).Pairwise (· ≤ ·))
    (hu : ∀ d ∈ net.m.decisions, ∃ a u, net.m.role d = .decision a ∧ net.m.role u = .utility a ∧ net.g.Desc d u)
    (hleaf : ∀ u a, net.m.role u = .utility a → ∀ w, ¬ net.g.Edge u w)
    (hj : ∀ sg, createSubgame pick setOrd net net.m.decisions = .ok sg → Joined sg.g ∧ sg.Distinct net.m.decisions)
    {found : List (List Cpd)} (h : getNe pick tpick ord setOrd agentOrd run conv override net = .ok found) {a : Agent}
    (hne : net.m.decisions ≠ []) (hone : ∀ d ∈ net.m.decisions, net.m.role d = .decision a) {res : List (List Cpd)}
    (hopt : optimalPurePolicies pick ord setOrd 0 net net.m.decisions = .ok res) :
    ∃ base, base.Usable ∧ Reference net net.m.decisions base ∧ ∀ q ∈ found, ∀ p ∈ res, ∃ n n', net.addPolicy q = (n, .ok ()) ∧
      base.addPolicy p = (n', .ok ()) ∧ n.EU a = n'.EU a := by
  obtain ⟨base, pols, q1, q2, q3, q4, q5, q6, m, -, q8, q9⟩ := C46_optimal_pure_policies hU hnames hord hset le_rfl (by norm_num) hne hone hopt
  have hmm : ∀ d, d ∈ setOrd net.m.decisions.dedup ↔ d ∈ net.m.decisions := fun d => ((hset _).mem_iff).trans List.mem_dedup
  have hrole : ∀ d ∈ setOrd net.m.decisions.dedup, base.m.role d = .decision a := fun d hd => by
    rw [q2.roles]
    exact hone d ((hmm d).1 hd)
  have hn : (setOrd net.m.decisions.dedup).Nodup := (hset _).nodup_iff.2 (List.nodup_dedup _)
  have hdn : ∀ d ∈ net.m.decisions, d ∈ net.g.nodes := fun d hd => hU.roles.nodes d (Or.inl hd)
  obtain ⟨pols', p1, p2, p3, p4⟩ := purePolicies_ok q1 hn (fun d hd =>
    q1.roles.nodes d (Or.inl (Dict.mem_keys.2 ⟨a, role_decision.1 (hrole d hd)⟩)))
  rw [q3] at p2
  cases p2
  refine ⟨base, q1, q2, fun q hq p hp => ?_⟩
  obtain ⟨-, n, h2, h3, h4, h5⟩ := C78_get_ne_in_sg hU hnames hord hset hao hrun hU.roles.dec.nodeKeys (fun d hd => hd) hm hu hleaf hj h q hq
  obtain ⟨n', e1, e2, e3⟩ := q4 p (q6.subset hp)
  refine ⟨n, n', h2, e1, ?_⟩
  have hsb : SameGame net base := ⟨q2.nodes, q2.edges, q2.domain, q2.roles⟩
  have hs : SameGame n n' := h4.same.symm'.trans' (hsb.trans' e3.same)
  have hout : ∀ v ∈ net.g.nodes, v ∉ net.m.decisions → ∀ x, net.InDom x → base.kernel v x = n.kernel v x := fun v hv hvd x hx => by
    rw [(q2.same v hv (fun q => hvd q.1)).2 x hx, h4.kernel hvd]
  have hown : n.decsOf net.m.decisions a = net.m.decisions := by
    unfold decsOf
    rw [List.filter_eq_self]
    intro d hd
    rw [h4.m]
    simpa using hone d hd
  have hN : n.NoGain net.m.decisions [a] := h5 [a] (fun x hx => by
    obtain ⟨d, hd⟩ := List.exists_mem_of_ne_nil _ hne
    rw [List.mem_singleton] at hx
    exact ⟨d, hd, hx ▸ hone d hd⟩)
  have hng : n.g.nodes = net.g.nodes := by rw [h4.g]
  apply le_antisymm
  · obtain ⟨M, m1, m2, m3⟩ := blend q1 h3 (hsb.symm'.trans' h4.same) (S := net.m.decisions) hU.roles.dec.nodeKeys
      (fun d hd => by rw [q2.nodes]; exact hdn d hd)
    have hM : M.EU a = n.EU a := by
      refine SameGame.EU h3 m1 (h4.same.symm'.trans' (hsb.trans' m2.same)) (fun v hv x hx => ?_) a
      by_cases hvd : v ∈ net.m.decisions
      · exact m3 v hvd x
      · rw [m2.kernel hvd]
        exact hout v (hng ▸ hv) hvd x ((h4.inDom x).1 hx)
    obtain ⟨pol', hp', hle⟩ := enumerated_suffices q1 hn hrole p1 m1 (m2.mono (fun w hw => (hmm w).2 hw))
    unfold polU at hle
    have hv := q8 p hp
    rw [close_zero, e1] at hv
    simp only at hv
    rw [← hM, hv]
    rcases q9 pol' hp' with h' | h'
    · exact hle.trans h'
    · exact hle.trans (close_zero.1 h').le
  · refine NoGain.reply h3 e2 hs hU.roles.dec.nodeKeys (fun d hd => by rw [hng]; exact hdn d hd) hN (by simp) (fun v hv hvd x hx => ?_)
    have hvd' : v ∉ net.m.decisions := fun q => hvd (hown.symm ▸ q : v ∈ n.decsOf net.m.decisions a)
    rw [e3.kernel hvd']
    exact hout v (hng ▸ hv) hvd' x ((h4.inDom x).1 hx)

/-- **C120** Matching pennies has constant sum 0, an equilibrium, and every equilibrium is worth 0 to both. -/
theorem C120_example : ∃ net, matchingPennies = .ok net ∧ net.Usable ∧ net.ConstantSum net.m.decisions 1 2 0 ∧
    (∀ d ∈ net.m.decisions, net.m.role d = .decision 1 ∨ net.m.role d = .decision 2) ∧
    (∃ n, n.Usable ∧ OnlyRules net net.m.decisions n ∧ n.NoGain net.m.decisions [1, 2]) ∧
    ∀ n, n.Usable → OnlyRules net net.m.decisions n → n.NoGain net.m.decisions [1, 2] → n.EU 1 = 0 ∧ n.EU 2 = 0 := by
  have hA := shape2 1 (-1) (-1) 1
  have hB := shape2 (-1) 1 1 (-1)
  have nd : ([0, 1] : List Outcome).Nodup := by decide +kernel
  obtain ⟨net, e, hU, hd, ⟨r1, r2, -, -⟩, -, -, hev⟩ := C114_tables (.inl rfl : Seats.numbered = .numbered ∨ _) false (by simp) (by simp) nd nd hA hB
  have pay : ∀ n, n.Usable → OnlyRules net net.m.decisions n → ∃ x0 x1 y0 y1 : Rat,
      (x0 = n.chooses "D1" 0 ∧ x1 = n.chooses "D1" 1 ∧ y0 = n.answers "D1" "D2" 0 0 ∧ y1 = n.answers "D1" "D2" 0 1) ∧
      n.EU 1 = (x0 - x1) * (y0 - y1) ∧ n.EU 2 = - ((x0 - x1) * (y0 - y1)) ∧
      (n.NoGain net.m.decisions [1, 2] ↔ (y0 - y1 ≤ n.EU 1 ∧ y1 - y0 ≤ n.EU 1) ∧ x1 - x0 ≤ n.EU 2 ∧ x0 - x1 ≤ n.EU 2) := by
    intro n hn ho
    obtain ⟨k1, k2, k3, k4⟩ := hev n hn ho
    have k3' := k3
    have k4' := k4
    rw [payoff2, k2.2 rfl 1 0 0, k2.2 rfl 1 0 1] at k3 k4
    simp only [(entry2 1 (-1) (-1) 1).1, (entry2 1 (-1) (-1) 1).2.1, (entry2 1 (-1) (-1) 1).2.2.1, (entry2 1 (-1) (-1) 1).2.2.2] at k3
    simp only [(entry2 (-1) 1 1 (-1)).1, (entry2 (-1) 1 1 (-1)).2.1, (entry2 (-1) 1 1 (-1)).2.2.1, (entry2 (-1) 1 1 (-1)).2.2.2] at k4
    refine ⟨n.chooses Seats.numbered.d1 0, n.chooses Seats.numbered.d1 1, n.answers Seats.numbered.d1 Seats.numbered.d2 0 0,
      n.answers Seats.numbered.d1 Seats.numbered.d2 0 1, ⟨rfl, rfl, rfl, rfl⟩, ?_, ?_, ?_⟩
    · rw [show n.EU 1 = _ from k3]; ring
    · rw [show n.EU 2 = _ from k4]; ring
    · have h := C114_equilibria (.inl rfl : Seats.numbered = .numbered ∨ _) false (by simp) (by simp) nd nd hA hB e hn ho
      rw [show n.NoGain net.m.decisions [1, 2] ↔ _ from hd ▸ h, TableEquilibrium, first2, second2, ← k3', ← k4', k2.2 rfl 1 0 0, k2.2 rfl 1 0 1]
      simp only [(entry2 1 (-1) (-1) 1).1, (entry2 1 (-1) (-1) 1).2.1, (entry2 1 (-1) (-1) 1).2.2.1, (entry2 1 (-1) (-1) 1).2.2.2,
        (entry2 (-1) 1 1 (-1)).1, (entry2 (-1) 1 1 (-1)).2.1, (entry2 (-1) 1 1 (-1)).2.2.1, (entry2 (-1) 1 1 (-1)).2.2.2]
      show _ ↔ (n.answers Seats.numbered.d1 Seats.numbered.d2 0 0 - n.answers Seats.numbered.d1 Seats.numbered.d2 0 1 ≤ n.EU Seats.numbered.p1 ∧
        n.answers Seats.numbered.d1 Seats.numbered.d2 0 1 - n.answers Seats.numbered.d1 Seats.numbered.d2 0 0 ≤ n.EU Seats.numbered.p1) ∧
        n.chooses Seats.numbered.d1 1 - n.chooses Seats.numbered.d1 0 ≤ n.EU Seats.numbered.p2 ∧
        n.chooses Seats.numbered.d1 0 - n.chooses Seats.numbered.d1 1 ≤ n.EU Seats.numbered.p2
      constructor
      · rintro ⟨⟨c1, c2⟩, c3, c4⟩
        refine ⟨⟨?_, ?_⟩, ?_, ?_⟩ <;> linarith
      · rintro ⟨⟨c1, c2⟩, c3, c4⟩
        refine ⟨⟨?_, ?_⟩, ?_, ?_⟩ <;> linarith
  refine ⟨net, e, hU, ?_, ?_, ?_, ?_⟩
  · intro n hn ho
    obtain ⟨x0, x1, y0, y1, -, e1, e2, -⟩ := pay n hn ho
    rw [e1, e2]; ring
  · intro d hd'
    rw [hd] at hd'
    simp only [List.mem_cons, List.not_mem_nil, or_false] at hd'
    rcases hd' with rfl | rfl
    · exact .inl r1
    · exact .inr r2
  · obtain ⟨n, q1, q2, q3, q4⟩ := C114_all_strategies (.inl rfl : Seats.numbered = .numbered ∨ _) false (by simp) (by simp) nd nd hA hB e
      (x := fun _ => 1 / 2) (y := fun _ _ => 1 / 2) ((mix2 _).2 (by norm_num)) ⟨fun a _ => (mix2 _).2 (by norm_num), by simp⟩
    refine ⟨n, q1, q2, ?_⟩
    obtain ⟨x0, x1, y0, y1, ⟨rfl, rfl, rfl, rfl⟩, e1, e2, e3⟩ := pay n q1 q2
    rw [e3, e1, e2, show n.chooses "D1" 0 = 1 / 2 from q3 0 (by simp), show n.chooses "D1" 1 = 1 / 2 from q3 1 (by simp),
      show n.answers "D1" "D2" 0 0 = 1 / 2 from q4 0 (by simp) 0 (by simp), show n.answers "D1" "D2" 0 1 = 1 / 2 from q4 0 (by simp) 1 (by simp)]
    norm_num
  · intro n hn ho hN
    obtain ⟨x0, x1, y0, y1, -, e1, e2, e3⟩ := pay n hn ho
    obtain ⟨⟨k1, k2⟩, k3, k4⟩ := e3.1 hN
    rw [e1] at k1 k2 ⊢
    rw [e2] at k3 k4 ⊢
    constructor <;> linarith

end Verif

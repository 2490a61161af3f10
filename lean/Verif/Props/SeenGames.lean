import Verif.Props.Information
import Verif.Props.Values
import Verif.Props.FrontDoor

/-!
# C124: what observations are worth in games
-/

namespace Verif
open Net Graph Relation Macid

/-- a rule can be followed where at least as much is observed -/
theorem rule_carry {n1 n2 : Net} (h1 : n1.Usable) (hn : ∀ v, v ∈ n2.g.nodes ↔ v ∈ n1.g.nodes) (hdom : ∀ v ∈ n1.g.nodes, n2.dom v = n1.dom v)
    {d : Node} (hd : d ∈ n1.g.nodes) (hE : ∀ u, n1.g.Edge u d → n2.g.Edge u d) : n2.bn.IsRule d (n1.kernel d) := by
  obtain ⟨q1, q2, q3⟩ := BN.isRule_k (bn_prob h1.good h1.normalised) (d := d) hd
  refine ⟨q1.mono (fun u hu => hu.imp id (hE u)), fun a ha => ?_, fun a ha => ?_⟩
  · show ((n2.dom d).map _).sum = 1
    rw [hdom d hd]
    exact q2 a (fun p hp => by
      have := ha p (hE p hp)
      rwa [show n2.bn.dom p = n2.dom p from rfl, hdom p (h1.good.wf.edgeNodes p d hp).1] at this)
  · refine q3 a (fun u hu => ?_)
    have hun : u ∈ n1.g.nodes := by
      rcases hu with rfl | hu
      · exact hd
      · exact (h1.good.wf.edgeNodes u d hu).1
    have := ha u (hu.imp id (hE u))
    rwa [show n2.bn.dom u = n2.dom u from rfl, hdom u hun] at this

/-- expected utility depends on the world and the rules, not on the edges -/
theorem SameWorld.EU {n n' : Net} (hU : n.Usable) (hU' : n'.Usable) (h : SameWorld (fun _ => False) n n') (agent : Agent) :
    n'.EU agent = n.EU agent := by
  rw [EU_eq hU agent, EU_eq hU' agent]
  have hp : (n'.utils agent).Perm (n.utils agent) :=
    (List.perm_ext_iff_of_nodup (utils_nodup hU'.roles agent) (utils_nodup hU.roles agent)).2 (fun u => by
      rw [mem_utils hU', mem_utils hU, h.roles])
  have e : (fun a : Assign => ((((n'.m.agentUtilities.get? agent).getD []).map a).sum)) =
      fun a => ((((n.m.agentUtilities.get? agent).getD []).map a).sum) := by
    funext a
    exact (hp.map a).sum_eq
  have hnp : n'.g.nodes.Perm n.g.nodes := (List.perm_ext_iff_of_nodup hU'.good.wf.nodesNodup hU.good.wf.nodesNodup).2 h.nodes
  rw [e]
  show sumOver n'.dom n'.g.nodes _ _ = sumOver n.dom n.g.nodes _ _
  rw [sumOver_perm hnp, sumOver_dom_perm (dom := n'.dom) (dom' := n.dom) (fun v hv => by rw [h.outcomes v hv])]
  apply sumOver_congr
  intro b hb _
  congr 1
  show (n'.g.nodes.map (fun v => n'.kernel v b)).prod = (n.g.nodes.map (fun v => n.kernel v b)).prod
  rw [(hnp.map _).prod_eq]
  exact congrArg List.prod (List.map_congr_left (fun v hv => h.kernels v hv (fun q => q) b hb))

/-- **C124** Two agents whose utilities always add up to the same number: if only decisions of `a` observe more, `a` does at least as well in every
equilibrium with the additional observations as in any equilibrium without them. -/
theorem C124_zero_sum {cid : Net} {a b : Agent} (hab : a ≠ b) (htwo : ∀ d e, cid.m.role d = .decision e → e = a ∨ e = b)
    {obs obs' : List (Node × Node)} (hs : obs ⊆ obs') (hnew : ∀ p ∈ obs', p ∈ obs ∨ cid.m.role p.2 = .decision a) {n n' : Net}
    (h : Informed cid obs n) (h' : Informed cid obs' n') {c : Rat} (hsum : n.ConstantSum n.m.decisions a b c)
    (e : n.NoGain n.m.decisions [a, b]) (e' : n'.NoGain n'.m.decisions [a, b]) : n.EU a ≤ n'.EU a := by
  have hw : SameWorld (· ∈ n.m.decisions) n n' := h.symm_world h'
  have hnd : ∀ {k : Net}, k.Usable → k.m.decisions.Nodup := fun hk => hk.roles.dec.nodeKeys
  have hmem : ∀ {k : Net}, k.Usable → ∀ d ∈ k.m.decisions, d ∈ k.g.nodes := fun hk d hd => hk.roles.nodes d (Or.inl hd)
  have hEa : ∀ u d, n.g.Edge u d → n'.g.Edge u d := fun u d q => (h'.edges u d).2 (((h.edges u d).1 q).imp id (fun q => hs q))
  have hEb : ∀ d, n.m.role d = .decision b → ∀ u, n'.g.Edge u d → n.g.Edge u d := fun d hd u q => by
    refine (h.edges u d).2 (((h'.edges u d).1 q).imp id (fun q => ?_))
    refine (hnew _ q).resolve_right (fun r => ?_)
    rw [h.same.roles, r] at hd
    exact hab (by simpa using hd)
  have hin : ∀ x, n'.InDom x ↔ n.InDom x := fun x => by
    unfold InDom
    exact ⟨fun q v hv => by rw [← hw.outcomes v hv]; exact q v ((hw.nodes v).2 hv),
      fun q v hv => by rw [hw.outcomes v ((hw.nodes v).1 hv)]; exact q v ((hw.nodes v).1 hv)⟩
  -- the rules of `b` in the game with more observations, put into the game with fewer
  obtain ⟨M, m1, m2, m3⟩ := realize (n.decsOf n.m.decisions b) h.usable ((hnd h.usable).filter _)
    (fun d hd => hmem h.usable d (mem_decsOf.1 hd).1) (σ := fun d => n'.kernel d) (fun d hd => by
      obtain ⟨k1, k2⟩ := mem_decsOf.1 hd
      have hd1 := hmem h.usable d k1
      exact rule_carry h'.usable (fun v => (hw.nodes v).symm) (fun v hv => (hw.outcomes v ((hw.nodes v).1 hv)).symm) ((hw.nodes d).2 hd1) (hEb d k2))
  -- the rules of `a` in the game with fewer observations, put into the game with more
  obtain ⟨M', m1', m2', m3'⟩ := realize (n'.decsOf n'.m.decisions a) h'.usable ((hnd h'.usable).filter _)
    (fun d hd => hmem h'.usable d (mem_decsOf.1 hd).1) (σ := fun d => n.kernel d) (fun d hd => by
      obtain ⟨k1, k2⟩ := mem_decsOf.1 hd
      exact rule_carry h.usable hw.nodes hw.outcomes ((hw.nodes d).1 (hmem h'.usable d k1)) (fun u => hEa u d))
  have eq : ∀ agent, M'.EU agent = M.EU agent := by
    refine SameWorld.EU m1 m1' ⟨fun v => ?_, fun v => ?_, fun v hv => ?_, fun v hv _ x hx => ?_⟩
    · rw [m2.g, m2'.g]; exact hw.nodes v
    · rw [m2.m, m2'.m]; exact hw.roles v
    · rw [m2.dom, m2'.dom]; rw [m2.g] at hv; exact hw.outcomes v hv
    · rw [m2.g] at hv
      have hx1 : n.InDom x := (m2.inDom x).1 hx
      have hx2 : n'.InDom x := (hin x).2 hx1
      by_cases hd : v ∈ n.m.decisions
      · obtain ⟨ag, hag⟩ := decisions_role.1 hd
        have hag' : cid.m.role v = .decision ag := by rw [← h.same.roles]; exact hag
        rcases htwo v ag hag' with rfl | rfl
        · rw [m3' v (mem_decsOf.2 ⟨(hw.decisions v).2 hd, by rw [hw.roles]; exact hag⟩) x hx2, m2.kernel (fun q => ?_)]
          have := hag.symm.trans (mem_decsOf.1 q).2
          simp only [Role.decision.injEq] at this
          exact hab this
        · rw [m3 v (mem_decsOf.2 ⟨hd, hag⟩) x hx1, m2'.kernel (fun q => ?_)]
          have := hag.symm.trans ((hw.roles v).symm.trans (mem_decsOf.1 q).2)
          simp only [Role.decision.injEq] at this
          exact hab this.symm
      · rw [m2'.kernel (fun q => hd ((hw.decisions v).1 (mem_decsOf.1 q).1)), m2.kernel (fun q => hd (mem_decsOf.1 q).1)]
        exact hw.kernels v hv hd x hx1
  have g1 := noGain_iff.1 e b (by simp) M m1 m2
  have g2 := noGain_iff.1 e' a (by simp) M' m1' m2'
  have s1 := hsum n h.usable (.rfl' _ _)
  have s2 := hsum M m1 (m2.mono (fun d hd => (mem_decsOf.1 hd).1))
  rw [eq a] at g2
  linarith

/-- **C124** The same for the profiles `get_ne` returns: with more observations for `a`, they are worth at least as much to `a`. -/
theorem C124_get_ne {cid : Net} {a b : Agent} (hab : a ≠ b) (htwo : ∀ d e, cid.m.role d = .decision e → e = a ∨ e = b)
    {obs obs' : List (Node × Node)} (hs : obs ⊆ obs') (hnew : ∀ p ∈ obs', p ∈ obs ∨ cid.m.role p.2 = .decision a) {n n' : Net}
    (h : Informed cid obs n) (h' : Informed cid obs' n') {c : Rat} (hsum : n.ConstantSum n.m.decisions a b c) (hnames : NamesOk cid.g)
    {pick : Pick} {tpick : List Node → Nat}
    {ord setOrd : List Node → List Node} (hord : ∀ l, (ord l).Perm l) (hset : ∀ l, (setOrd l).Perm l) {agentOrd : List Agent → List Agent}
    (hao : ∀ l, (agentOrd l).Perm l) {run : Efg → Solver → Py (List Behavior)} {conv : Behavior → Behavior} (hrun : SoundSolvers run conv)
    {override : Option String} (hp : ∀ net ∈ [n, n'],
      (∀ v ∈ net.g.nodes, ¬ net.m.InGame net.m.decisions v → (∃ w, net.g.Edge v w ∧ net.m.InGame net.m.decisions w) →
        net.Own v ∧ (net.dom v).Pairwise (· ≤ ·)) ∧
      (∀ d ∈ net.m.decisions, ∃ a u, net.m.role d = .decision a ∧ net.m.role u = .utility a ∧ net.g.Desc d u) ∧
      (∀ u a, net.m.role u = .utility a → ∀ w, ¬ net.g.Edge u w) ∧
      ∀ sg, createSubgame pick setOrd net net.m.decisions = .ok sg → Joined sg.g ∧ sg.Distinct net.m.decisions)
    {found found' : List (List Cpd)} (hf : getNe pick tpick ord setOrd agentOrd run conv override n = .ok found)
    (hf' : getNe pick tpick ord setOrd agentOrd run conv override n' = .ok found') :
    ∀ q ∈ found, ∀ q' ∈ found', ∃ k k', n.addPolicy q = (k, .ok ()) ∧ n'.addPolicy q' = (k', .ok ()) ∧ k.EU a ≤ k'.EU a := by
  have names : ∀ {k : Net} {o : List (Node × Node)}, Informed cid o k → NamesOk k.g := fun hk => namesOk_sub hnames (fun v hv => (hk.same.nodes v).1 hv)
  have key : ∀ {net : Net} {f : List (List Cpd)}, net.Usable → NamesOk net.g → net ∈ [n, n'] →
      getNe pick tpick ord setOrd agentOrd run conv override net = .ok f →
      ∀ q ∈ f, ∃ k, net.addPolicy q = (k, .ok ()) ∧ k.Usable ∧ OnlyRules net net.m.decisions k ∧ k.NoGain net.m.decisions [a, b] := by
    intro net f hU hN hmem hf q hq
    obtain ⟨p1, p2, p3, p4⟩ := hp net hmem
    obtain ⟨h1, n, h2, h3, h4, -⟩ := C78_get_ne_in_sg hU hN hord hset hao hrun hU.roles.dec.nodeKeys (fun d hd => hd) p1 p2 p3 p4 hf q hq
    obtain ⟨-, n', k2, -, k3⟩ := C78_get_ne hU hN hord hset hao hrun p1 p2 p3 p4 hf q hq
    rw [h2] at k2
    cases k2
    refine ⟨n, h2, h3, h4, noGain_iff.2 (fun agent _ n' u1 u2 => k3 agent n' u1 ?_)⟩
    rw [decsOf_same h4.same] at u2
    exact u2
  have move : ∀ {k n : Net} {o : List (Node × Node)}, Informed cid o n → k.Usable → OnlyRules n n.m.decisions k → Informed cid o k :=
    fun hn hk ho => ⟨hk, hn.same.trans (ho.world.congr (fun v hv => (hn.same.decisions v).1 hv)), fun u v => by rw [ho.g]; exact hn.edges u v⟩
  intro q hq q' hq'
  obtain ⟨k, a1, a2, a3, a4⟩ := key h.usable (names h) (by simp) hf q hq
  obtain ⟨k', b1, b2, b3, b4⟩ := key h'.usable (names h') (by simp) hf' q' hq'
  refine ⟨k, k', a1, b1, C124_zero_sum hab htwo hs hnew (move h a2 a3) (move h' b2 b3) (c := c) (fun x x1 x2 => ?_)
    (by rw [a3.m]; exact a4) (by rw [b3.m]; exact b4)⟩
  rw [a3.m] at x2
  exact hsum x x1 (a3.trans x2 (fun _ h => h) (fun _ h => h))

theorem sum_nonneg_zero {l : List Outcome} {f : Outcome → Rat} (h : ∀ x ∈ l, 0 ≤ f x) (hs : (l.map f).sum ≤ 0) : ∀ x ∈ l, f x = 0 := by
  induction l with
  | nil => simp
  | cons y l ih =>
    simp only [List.map_cons, List.sum_cons] at hs
    have h0 := h y (by simp)
    have h1 : 0 ≤ (l.map f).sum := List.sum_nonneg (by
      intro x hx
      obtain ⟨z, hz, rfl⟩ := List.mem_map.1 hx
      exact h z (by simp [hz]))
    intro x hx
    rcases List.mem_cons.1 hx with rfl | hx
    · linarith
    · exact ih (fun z hz => h z (by simp [hz])) (by linarith) x hx

/-- **C124** The first player of a game in which the second sees the choice does at least as well in every subgame perfect equilibrium as by making
any choice to which the second player has a single best reply. -/
theorem C124_leader {s : Seats} (hs : s = .numbered ∨ s = .couple ∨ s = .counted) {l1 l2 : List Outcome} (h1 : l1 ≠ []) (h2 : l2 ≠ [])
    (n1 : l1.Nodup) (n2 : l2.Nodup) {A B : List (List Rat)} (hA : TableShape A l1 l2) (hB : TableShape B l1 l2) {net : Net}
    (hnet : tableGame s true l1 l2 A B = .ok net) {n : Net} (hU : n.Usable) (ho : OnlyRules net net.m.decisions n) (hsp : n.SubgamePerfect)
    {a b : Outcome} (ha : a ∈ l1) (hb : b ∈ l2) (hbest : ∀ b' ∈ l2, b' ≠ b → tableEntry B l1 l2 a b' < tableEntry B l1 l2 a b) :
    tableEntry A l1 l2 a b ≤ n.EU s.p1 := by
  obtain ⟨k1, k2⟩ := (C114_subgame_perfect hs h1 h2 n1 n2 hA hB hnet hU ho).1 hsp
  obtain ⟨net', e, hU', hd, -, -, -, hev⟩ := C114_tables hs true h1 h2 n1 n2 hA hB
  rw [hnet] at e
  cases e
  obtain ⟨-, r1, r2, -⟩ := hev n hU ho
  have point : ∀ {l : List Outcome} {y : Outcome}, l.Nodup → y ∈ l → IsMix l (fun x => if x = y then 1 else 0) := fun hn hy =>
    ⟨fun _ _ => by dsimp only; split <;> norm_num, by simpa using sum_point hn hy (fun _ => 1)⟩
  rw [r2]
  refine le_trans (le_of_eq ?_) (k2 _ (point n1 ha))
  rw [expectedPayoff_rows, sum_point n1 ha]
  have hz := r1.1 a ha
  have hmax := k1 a ha _ (point n2 hb)
  unfold replyPayoff at hmax ⊢
  rw [sum_point n2 hb] at hmax
  have key : ∀ x ∈ l2, n.answers s.d1 s.d2 a x * (tableEntry B l1 l2 a b - tableEntry B l1 l2 a x) = 0 := by
    refine sum_nonneg_zero (fun x hx => mul_nonneg (hz.1 x hx) ?_) ?_
    · by_cases e : x = b
      · rw [e, sub_self]
      · exact sub_nonneg.2 (hbest x hx e).le
    · have : (l2.map (fun x => n.answers s.d1 s.d2 a x * (tableEntry B l1 l2 a b - tableEntry B l1 l2 a x))).sum =
          (l2.map (n.answers s.d1 s.d2 a)).sum * tableEntry B l1 l2 a b - (l2.map (fun x => n.answers s.d1 s.d2 a x * tableEntry B l1 l2 a x)).sum := by
        rw [← List.sum_map_mul_right, sum_sub_map]
        exact congrArg List.sum (List.map_congr_left (fun x _ => by ring))
      rw [this, hz.2]
      linarith
  have e : (l2.map (fun x => n.answers s.d1 s.d2 a x * tableEntry A l1 l2 a x)).sum =
      (l2.map (fun x => n.answers s.d1 s.d2 a x * tableEntry A l1 l2 a b)).sum := by
    refine congrArg List.sum (List.map_congr_left (fun x hx => ?_))
    by_cases e : x = b
    · rw [e]
    · have := (mul_eq_zero.1 (key x hx)).resolve_right (fun q => by have := hbest x hx e; linarith)
      rw [this]; ring
  rw [e, List.sum_map_mul_right, hz.2, one_mul]

/-- the expected utilities of a game with two choices for each player -/
theorem payoffs2 {s : Seats} (hs : s = .numbered ∨ s = .couple ∨ s = .counted) (seen : Bool) {a b c d a' b' c' d' : Rat} {net : Net}
    (hnet : tableGame s seen [0, 1] [0, 1] [[a, b], [c, d]] [[a', b'], [c', d']] = .ok net) {n : Net} (hU : n.Usable)
    (ho : OnlyRules net net.m.decisions n) :
    n.EU s.p1 = n.chooses s.d1 0 * (n.answers s.d1 s.d2 0 0 * a + (1 - n.answers s.d1 s.d2 0 0) * b) +
      (1 - n.chooses s.d1 0) * (n.answers s.d1 s.d2 1 0 * c + (1 - n.answers s.d1 s.d2 1 0) * d) ∧
    n.EU s.p2 = n.chooses s.d1 0 * (n.answers s.d1 s.d2 0 0 * a' + (1 - n.answers s.d1 s.d2 0 0) * b') +
      (1 - n.chooses s.d1 0) * (n.answers s.d1 s.d2 1 0 * c' + (1 - n.answers s.d1 s.d2 1 0) * d') ∧
    (seen = false → ∀ x, n.answers s.d1 s.d2 x 0 = n.chooses s.d2 0) := by
  have nd : ([0, 1] : List Outcome).Nodup := by decide +kernel
  obtain ⟨net', e, hm, hb⟩ := tableGame_board hs seen (l1 := [0, 1]) (l2 := [0, 1]) (by simp) (by simp) nd nd
    (shape2 a b c d) (shape2 a' b' c' d')
  rw [hnet] at e
  cases e
  have hd : net.m.decisions = [s.d1, s.d2] := by rw [hm]; rfl
  have hB := hb.move (ds := net.m.decisions) (by rw [hd]; simp) hU ho
  obtain ⟨x0, x1, x2⟩ := (mix2 _).1 hB.mix1
  obtain ⟨r1, r2⟩ := hB.reply2
  obtain ⟨y0, y1, y2⟩ := (mix2 _).1 (r1 0 (by simp))
  obtain ⟨z0, z1, z2⟩ := (mix2 _).1 (r1 1 (by simp))
  have ex : n.chooses s.d1 1 = 1 - n.chooses s.d1 0 := by linarith
  have ey : n.answers s.d1 s.d2 0 1 = 1 - n.answers s.d1 s.d2 0 0 := by linarith
  have ez : n.answers s.d1 s.d2 1 1 = 1 - n.answers s.d1 s.d2 1 0 := by linarith
  refine ⟨?_, ?_, fun hf x => ?_⟩
  · rw [hB.EU1, payoff2, ex, ey, ez, (entry2 a b c d).1, (entry2 a b c d).2.1, (entry2 a b c d).2.2.1, (entry2 a b c d).2.2.2]
    ring
  · rw [hB.EU2, payoff2, ex, ey, ez, (entry2 a' b' c' d').1, (entry2 a' b' c' d').2.1, (entry2 a' b' c' d').2.2.1, (entry2 a' b' c' d').2.2.2]
    ring
  · unfold answers chooses
    apply kernel_depends hU.good hB.mem2
    rintro v (rfl | e)
    · simp
    · exact absurd ((hB.parents2 v).1 e).1 (by simp [hf])

/-- seeing the choice of the first player is one additional observation -/
theorem seen_informed {s : Seats} (hs : s = .numbered ∨ s = .couple ∨ s = .counted) {a b c d a' b' c' d' : Rat} {net net' : Net}
    (h : tableGame s false [0, 1] [0, 1] [[a, b], [c, d]] [[a', b'], [c', d']] = .ok net)
    (h' : tableGame s true [0, 1] [0, 1] [[a, b], [c, d]] [[a', b'], [c', d']] = .ok net')
    (ho : ∀ v ∈ [s.u1, s.u2], net'.dom v = net.dom v) : Informed net [(s.d1, s.d2)] net' := by
  have nd : ([0, 1] : List Outcome).Nodup := by decide +kernel
  obtain ⟨k, e, hm, hb⟩ := tableGame_board hs false (l1 := [0, 1]) (l2 := [0, 1]) (by simp) (by simp) nd nd
    (shape2 a b c d) (shape2 a' b' c' d')
  obtain ⟨k', e', hm', hb'⟩ := tableGame_board hs true (l1 := [0, 1]) (l2 := [0, 1]) (by simp) (by simp) nd nd
    (shape2 a b c d) (shape2 a' b' c' d')
  rw [h] at e
  rw [h'] at e'
  cases e
  cases e'
  have hnode : ∀ v, v ∈ net'.g.nodes ↔ v ∈ net.g.nodes := fun v => by rw [hb.nodes, hb'.nodes]
  have hout : ∀ v ∈ net.g.nodes, net'.dom v = net.dom v := fun v hv => by
    rw [hb.nodes] at hv
    simp only [List.mem_cons, List.not_mem_nil, or_false] at hv
    rcases hv with rfl | rfl | rfl | rfl
    · rw [hb.dom1, hb'.dom1]
    · rw [hb.dom2, hb'.dom2]
    · exact ho _ (by simp)
    · exact ho _ (by simp)
  refine ⟨hb'.usable, ⟨hnode, fun v => ?_, hout, fun v hv hd x hx => ?_⟩, fun u v => ?_⟩
  · rw [hm, hm']; rfl
  · have hx' : net'.InDom x := fun u hu => by
      rw [hout u ((hnode u).1 hu)]; exact hx u ((hnode u).1 hu)
    rw [show net.m.decisions = [s.d1, s.d2] by rw [hm]; rfl] at hd
    rw [hb.nodes] at hv
    simp only [List.mem_cons, List.not_mem_nil, or_false] at hv hd
    rcases hv with rfl | rfl | rfl | rfl
    · simp at hd
    · simp at hd
    · rw [hb.pay1 x hx, hb'.pay1 x hx']
    · rw [hb.pay2 x hx, hb'.pay2 x hx']
  · rw [hb.edges, hb'.edges]
    simp

theorem outcomes2 {A B : List (List Rat)} {o1 o2 : List Outcome}
    (h : ∀ b, (match tableGame .numbered b [0, 1] [0, 1] A B with | .ok k => (k.dom "U1", k.dom "U2") | .error _ => ([], [])) = (o1, o2)) (k : Net)
    (b : Bool) (hk : tableGame .numbered b [0, 1] [0, 1] A B = .ok k) : k.dom "U1" = o1 ∧ k.dom "U2" = o2 := by
  have := h b
  rw [hk] at this
  simpa using this

/-- **C124** Without that hypothesis an observation can hurt the one who makes it.  The first player prefers the first choice whatever the second
does; the second then gets 2 in every equilibrium.  If the second player sees the choice of the first, and everyone knows it, the first player
chooses otherwise, and the second gets 1 in every subgame perfect equilibrium. -/
theorem C124_hurts : ∃ net net', tableGame .numbered false [0, 1] [0, 1] [[2, 4], [1, 3]] [[2, 0], [0, 1]] = .ok net ∧
    tableGame .numbered true [0, 1] [0, 1] [[2, 4], [1, 3]] [[2, 0], [0, 1]] = .ok net' ∧ net.Usable ∧ Informed net [("D1", "D2")] net' ∧
    (∃ n, n.Usable ∧ OnlyRules net net.m.decisions n ∧ n.NoGain ["D1", "D2"] [1, 2]) ∧
    (∀ n, n.Usable → OnlyRules net net.m.decisions n → n.NoGain ["D1", "D2"] [1, 2] → n.EU 2 = 2) ∧
    (∃ n, n.Usable ∧ OnlyRules net' net'.m.decisions n ∧ n.SubgamePerfect) ∧
    (∀ n, n.Usable → OnlyRules net' net'.m.decisions n → n.SubgamePerfect → n.EU 2 = 1) := by
  have nd : ([0, 1] : List Outcome).Nodup := by decide +kernel
  obtain ⟨net, h1, h2, h3⟩ := simultaneous2 (s := .numbered) (.inl rfl) (a := 2) (b := 4) (c := 1) (d := 3) (a' := 2) (b' := 0) (c' := 0) (d' := 1)
  obtain ⟨net', h1', h2', h3'⟩ := sequential2 (s := .numbered) (.inl rfl) (a := 2) (b := 4) (c := 1) (d := 3) (a' := 2) (b' := 0) (c' := 0) (d' := 1)
  have hdom := outcomes2 (A := [[2, 4], [1, 3]]) (B := [[2, 0], [0, 1]]) (o1 := [1, 2, 3, 4]) (o2 := [0, 1, 2]) (by decide +kernel)
  refine ⟨net, net', h1, h1', h2, seen_informed (.inl rfl) h1 h1' ?_, ?_, ?_, ?_, ?_⟩
  · intro v hv
    simp only [List.mem_cons, List.not_mem_nil, or_false] at hv
    rcases hv with rfl | rfl
    · exact (hdom _ _ h1').1.trans (hdom _ _ h1).1.symm
    · exact (hdom _ _ h1').2.trans (hdom _ _ h1).2.symm
  · obtain ⟨n, q1, q2, q3, q4⟩ := C114_all_strategies (s := .numbered) (.inl rfl) false (by simp) (by simp) nd nd (shape2 _ _ _ _) (shape2 _ _ _ _) h1
      (x := fun x => if x = 0 then 1 else 0) (y := fun _ y => if y = 0 then 1 else 0) (by rw [mix2]; norm_num)
      ⟨fun _ _ => by rw [mix2]; norm_num, fun _ _ _ _ => rfl⟩
    refine ⟨n, q1, q2, ?_⟩
    obtain ⟨p, q, p0, p1, r0, r1, e1, e2, e3, e4, e5⟩ := h3 n q1 q2
    have k1 := q3 0 (by simp)
    have k2 := q4 0 (by simp) 0 (by simp)
    rw [(payoffs2 (.inl rfl) false h1 q1 q2).2.2 rfl] at k2
    simp only [if_true] at k1 k2
    rw [e1] at k1
    rw [e3] at k2
    subst k1 k2
    exact e5.2 (by norm_num)
  · intro n q1 q2 hN
    obtain ⟨p, q, p0, p1, r0, r1, e1, e2, e3, e4, e5⟩ := h3 n q1 q2
    obtain ⟨-, f2, f3⟩ := payoffs2 (.inl rfl) false h1 q1 q2
    obtain ⟨k1, k2, k3, k4⟩ := e5.1 hN
    rw [f3 rfl, f3 rfl, e1, e3] at f2
    have hp : p = 1 := by nlinarith
    subst hp
    have hq : q = 1 := by nlinarith
    subst hq
    rw [show n.EU 2 = _ from f2]; norm_num
  · obtain ⟨n, q1, q2, q3, q4⟩ := C114_all_strategies (s := .numbered) (.inl rfl) true (by simp) (by simp) nd nd (shape2 _ _ _ _) (shape2 _ _ _ _) h1'
      (x := fun x => if x = 1 then 1 else 0) (y := fun x y => if x = y then 1 else 0) (by rw [mix2]; norm_num)
      ⟨fun x hx => by
        simp only [List.mem_cons, List.not_mem_nil, or_false] at hx
        rw [mix2]; rcases hx with rfl | rfl <;> norm_num, by simp⟩
    refine ⟨n, q1, q2, ?_⟩
    obtain ⟨p, q, r, p0, p1, r0, r1, s0, s1, e1, e2, e3, e4, e5⟩ := h3' n q1 q2
    have k1 := q3 0 (by simp)
    have k2 := q4 0 (by simp) 0 (by simp)
    have k3 := q4 1 (by simp) 0 (by simp)
    rw [e1] at k1
    rw [e2] at k2
    rw [e3] at k3
    norm_num at k1 k2 k3
    subst k1 k2 k3
    exact e5.2 (by norm_num)
  · intro n q1 q2 hS
    obtain ⟨p, q, r, p0, p1, r0, r1, s0, s1, e1, e2, e3, e4, e5⟩ := h3' n q1 q2
    obtain ⟨-, f2, -⟩ := payoffs2 (.inl rfl) true h1' q1 q2
    obtain ⟨k1, k2, k3, k4, k5, k6⟩ := e5.1 hS
    rw [e1, e2, e3] at f2
    have hq : q = 1 := by linarith
    have hr : r = 0 := by linarith
    subst hq hr
    have hp : p = 0 := by linarith
    subst hp
    rw [show n.EU 2 = _ from f2]; norm_num

/-- **C124** The hypotheses are met: matching pennies, once as it is and once with the second player seeing the choice of the first.  Both games have
equilibria; the second player gets 0 in the first game and 1 in the second. -/
theorem C124_example : ∃ net n n', matchingPennies = .ok net ∧ net.Usable ∧ (∀ d e, net.m.role d = .decision e → e = 2 ∨ e = 1) ∧
    net.m.role "D2" = .decision 2 ∧ Informed net [] n ∧ Informed net [("D1", "D2")] n' ∧ n.ConstantSum n.m.decisions 2 1 0 ∧
    n.NoGain n.m.decisions [2, 1] ∧ n'.NoGain n'.m.decisions [2, 1] ∧ n.EU 2 = 0 ∧ n'.EU 2 = 1 := by
  have nd : ([0, 1] : List Outcome).Nodup := by decide +kernel
  obtain ⟨net, h1, h2, h3⟩ := simultaneous2 (s := .numbered) (.inl rfl) (a := 1) (b := -1) (c := -1) (d := 1) (a' := -1) (b' := 1) (c' := 1) (d' := -1)
  obtain ⟨net', h1', h2', h3'⟩ := sequential2 (s := .numbered) (.inl rfl) (a := 1) (b := -1) (c := -1) (d := 1) (a' := -1) (b' := 1) (c' := 1) (d' := -1)
  have hdom := outcomes2 (A := [[1, -1], [-1, 1]]) (B := [[-1, 1], [1, -1]]) (o1 := [-1, 1]) (o2 := [-1, 1]) (by decide +kernel)
  have hm := game_diagram (.inl rfl) h1
  have hm' := game_diagram (.inl rfl) h1'
  have hI : Informed net [("D1", "D2")] net' := seen_informed (.inl rfl) h1 h1' (by
    intro v hv
    simp only [List.mem_cons, List.not_mem_nil, or_false] at hv
    rcases hv with rfl | rfl
    · exact (hdom _ _ h1').1.trans (hdom _ _ h1).1.symm
    · exact (hdom _ _ h1').2.trans (hdom _ _ h1).2.symm)
  obtain ⟨n, q1, q2, q3, q4⟩ := C114_all_strategies (s := .numbered) (.inl rfl) false (by simp) (by simp) nd nd (shape2 _ _ _ _) (shape2 _ _ _ _) h1
    (x := fun _ => 1 / 2) (y := fun _ _ => 1 / 2) (by rw [mix2]; norm_num) ⟨fun _ _ => by rw [mix2]; norm_num, fun _ _ _ _ => rfl⟩
  obtain ⟨n', q1', q2', q3', q4'⟩ := C114_all_strategies (s := .numbered) (.inl rfl) true (by simp) (by simp) nd nd (shape2 _ _ _ _) (shape2 _ _ _ _) h1'
    (x := fun _ => 1 / 2) (y := fun x y => if x = y then 0 else 1) (by rw [mix2]; norm_num)
    ⟨fun x hx => by
      simp only [List.mem_cons, List.not_mem_nil, or_false] at hx
      rw [mix2]; rcases hx with rfl | rfl <;> norm_num, by simp⟩
  have flip : ∀ (k : Net) (ds : List Node), k.NoGain ds [1, 2] → k.NoGain ds [2, 1] := fun k ds h ag hag => h ag (by
    simp only [List.mem_cons, List.not_mem_nil, or_false] at hag ⊢; tauto)
  have hd : n.m.decisions = ["D1", "D2"] := by rw [q2.m, hm]; rfl
  have hd' : n'.m.decisions = ["D1", "D2"] := by rw [q2'.m, hm']; rfl
  refine ⟨net, n, n', h1, h2, fun d e he => ?_, ?_, ?_, ?_, ?_, ?_, ?_, ?_, ?_⟩
  · have hdd : d ∈ net.m.decisions := decisions_role.2 ⟨e, he⟩
    rw [hm] at hdd he
    have hdd' : d = "D1" ∨ d = "D2" := by
      rw [show (boardM Seats.numbered false).decisions = ["D1", "D2"] from rfl] at hdd
      simpa using hdd
    rcases hdd' with rfl | rfl
    · rw [show (boardM Seats.numbered false).role "D1" = .decision 1 by decide +kernel] at he
      exact .inr (by simpa using he.symm)
    · rw [show (boardM Seats.numbered false).role "D2" = .decision 2 by decide +kernel] at he
      exact .inl (by simpa using he.symm)
  · rw [hm]; decide +kernel
  · exact ⟨q1, q2.world, fun u v => by rw [q2.g]; simp⟩
  · refine ⟨q1', (hI.same.trans (q2'.world.congr (fun v hv => (hI.same.decisions v).1 hv))), fun u v => by rw [q2'.g]; exact hI.edges u v⟩
  · intro k k1 k2
    have ho : OnlyRules net net.m.decisions k := q2.trans k2 (fun _ h => h) (fun d h => by rw [q2.m] at h; exact h)
    obtain ⟨f1, f2, -⟩ := payoffs2 (.inl rfl) false h1 k1 ho
    rw [show k.EU 1 = _ from f1, show k.EU 2 = _ from f2]
    ring
  · rw [hd]
    obtain ⟨p, q, p0, p1, r0, r1, e1, e2, e3, e4, e5⟩ := h3 n q1 q2
    have k1 := q3 0 (by simp)
    have k2 := q4 0 (by simp) 0 (by simp)
    rw [(payoffs2 (.inl rfl) false h1 q1 q2).2.2 rfl, e3] at k2
    rw [e1] at k1
    subst k1 k2
    exact flip _ _ (e5.2 (by norm_num))
  · rw [hd']
    obtain ⟨p, q, r, p0, p1, r0, r1, s0, s1, e1, e2, e3, e4, e5⟩ := h3' n' q1' q2'
    have k1 := q3' 0 (by simp)
    have k2 := q4' 0 (by simp) 0 (by simp)
    have k3 := q4' 1 (by simp) 0 (by simp)
    rw [e1] at k1
    rw [e2] at k2
    rw [e3] at k3
    norm_num at k1 k2 k3
    subst k1 k2 k3
    exact flip _ _ (e4.2 (by norm_num))
  · obtain ⟨-, f2, f3⟩ := payoffs2 (.inl rfl) false h1 q1 q2
    have k1 := q3 0 (by simp)
    have k2 := q4 0 (by simp) 0 (by simp)
    have k3 := q4 1 (by simp) 0 (by simp)
    rw [k1, k2, k3] at f2
    rw [show n.EU 2 = _ from f2]
    norm_num
  · obtain ⟨-, f2, f3⟩ := payoffs2 (.inl rfl) true h1' q1' q2'
    have k1 := q3' 0 (by simp)
    have k2 := q4' 0 (by simp) 0 (by simp)
    have k3 := q4' 1 (by simp) 0 (by simp)
    rw [k1, k2, k3] at f2
    rw [show n'.EU 2 = _ from f2]
    norm_num

end Verif

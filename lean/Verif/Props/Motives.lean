import Verif.Lemmas.Deaf
import Verif.Props.IciMeaning
import Verif.Props.Patterns

/-!
# Property C96: what direct effect means, and what every reasoning pattern needs
-/

namespace Verif

open Graph Relation Macid Net

/-! ## Effective paths -/

theorem cut_chain {g : Graph} {N : List Node} : ∀ (l : List Node) (s : Node),
    (s :: l).IsChain (CutGraph g N).Edge ↔ (s :: l).IsChain g.Edge ∧ ∀ v ∈ l, v ∉ N
  | [], s => by simp
  | a :: l, s => by
    rw [List.isChain_cons_cons, List.isChain_cons_cons, cut_chain l a]
    have : (CutGraph g N).Edge s a ↔ g.Edge s a ∧ a ∉ N := mem_cutGraph
    rw [this]
    simp only [List.mem_cons, forall_eq_or_imp]
    tauto

/-- the decisions outside `E` -/
def outside (m : Macid) (E : List Node) : List Node := m.decisions.filter (fun v => decide (v ∉ E))

theorem mem_outside {m : Macid} {E : List Node} {v : Node} : v ∈ outside m E ↔ (∃ a, m.role v = .decision a) ∧ v ∉ E := by
  unfold outside
  simp [decisions_role]

theorem effectiveDir_iff {m : Macid} {E : List Node} {s t : Node} : m.EffectiveDir E s t ↔ (CutGraph m.g (outside m E)).DescEq s t := by
  rw [descEq_iff_path]
  unfold EffectiveDir
  refine exists_congr (fun p => ?_)
  cases p with
  | nil => simp [IsDirPath]
  | cons a l =>
    unfold IsDirPath EffectivePath
    rw [cut_chain]
    simp only [List.tail_cons, mem_outside, not_and, not_not, forall_exists_index]
    tauto

theorem effectiveDir_trans {m : Macid} {E : List Node} {s t u : Node} (h1 : m.EffectiveDir E s t) (h2 : m.EffectiveDir E t u) : m.EffectiveDir E s u :=
  effectiveDir_iff.2 ((effectiveDir_iff.1 h1).trans (effectiveDir_iff.1 h2))

theorem decisionFree_effective {m : Macid} {E : List Node} {s t : Node} (h : m.DecisionFree s t) (ht : ∀ a, m.role t = .decision a → t ∈ E) :
    m.EffectiveDir E s t := by
  obtain ⟨mid, h1, h2⟩ := h
  refine ⟨_, h1, fun v hv a ha => ?_⟩
  simp only [List.tail_cons, List.mem_append, List.mem_singleton] at hv
  rcases hv with hv | rfl
  · exact absurd ha (h2 v hv a)
  · exact ht a ha

theorem decisionFree_iff {m : Macid} {s t : Node} (hst : s ≠ t) (ht : ∀ a, m.role t ≠ .decision a) : m.DecisionFree s t ↔ m.EffectiveDir [] s t := by
  constructor
  · intro h; exact decisionFree_effective h (fun a ha => absurd ha (ht a))
  · rintro ⟨p, ⟨h1, h2, h3⟩, h4⟩
    cases p with
    | nil => simp at h1
    | cons b l =>
      simp only [List.head?_cons, Option.some.injEq] at h1
      subst h1
      rcases List.eq_nil_or_concat l with rfl | ⟨mid, c, rfl⟩
      · simp at h2; exact absurd h2 hst
      · have hc : c = t := by
          rw [List.concat_eq_append, ← List.cons_append, List.getLast?_concat] at h2
          exact Option.some.inj h2
        subst hc
        rw [List.concat_eq_append] at *
        exact ⟨mid, ⟨rfl, by rw [← List.cons_append, List.getLast?_concat], h3⟩, fun v hv a ha => by simpa using h4 v (by simp [hv]) a ha⟩

/-- leaving `d` itself out does not matter for paths that start at `d` -/
theorem effectiveDir_self {m : Macid} (hw : m.g.WF) {E : List Node} {d u : Node}
    (h : (CutGraph m.g ((outside m E).filter (fun v => decide (v ≠ d)))).DescEq d u) : m.EffectiveDir E d u := by
  rw [effectiveDir_iff]
  induction h with
  | refl => exact .refl
  | @tail b c hb hbc ih =>
    have e := mem_cutGraph.1 hbc
    refine ih.tail (mem_cutGraph.2 ⟨e.1, fun hc => ?_⟩)
    have hcd : c ≠ d := by
      rintro rfl
      have h1 : m.g.DescEq c b := ReflTransGen.mono (fun a b h => (mem_cutGraph.1 h).1) _ _ hb
      exact hw.acyclic c (TransGen.tail' h1 e.1)
    exact e.2 (List.mem_filter.2 ⟨hc, by simpa using hcd⟩)

/-! ## No influence without an effective path -/

theorem utils_eq (net : Net) (agent : Agent) (int : List (Node × Outcome)) : net.EUDo int agent = ((net.utils agent).map (net.Mean int [])).sum := rfl

/-- **C96** In every game, if the decisions outside the set `E` pay no attention to what they observe and there is no directed path
from the decision `d` to a utility of `a` on which all later decisions are in `E`, then the choice made at `d` does not matter for `a`:
the expected utility of `a` is the same whatever `d` is set to. -/
theorem C96_no_influence {game : Net} (hU : game.Usable) {a : Agent} {d : Node} {E : List Node}
    (hno : ∀ u, game.m.role u = .utility a → ¬ game.m.EffectiveDir E d u)
    (hign : ∀ e b, game.m.role e = .decision b → e ≠ d → e ∉ E → game.Ignores e)
    (hdn : d ∈ game.g.nodes) {x y : Outcome} (hx : x ∈ game.dom d) (hy : y ∈ game.dom d) : game.EUDo [(d, x)] a = game.EUDo [(d, y)] a := by
  have hone : ∀ x ∈ game.dom d, game.PDo [(d, x)] (Ctx []) = 1 := by
    intro x hx
    rw [PDo_eq_W (by simpa using hdn)]
    simpa [Ctx] using BN.W_one (doBN_prob hU.good hU.normalised (int := [(d, x)]) (by simp) (by simpa using hx))
  rw [utils_eq, utils_eq]
  congr 1
  apply List.map_congr_left
  intro u hu
  have hr := (mem_utils hU).1 hu
  have hun : u ∈ game.g.nodes := hU.roles.nodes u (Or.inr (Dict.mem_keys.2 ⟨a, (role_utility hU.roles).1 hr⟩))
  rw [Mean_eq hU.good (by simpa using hdn) hun, Mean_eq hU.good (by simpa using hdn) hun]
  unfold EW
  rw [hone x hx, hone y hy, div_one, div_one]
  refine deaf_do hU.good hU.normalised hdn hx hy
    (N := (outside game.m E).filter (fun v => decide (v ≠ d))) (by simp) (fun e he _ => ?_) hun
    (fun h => hno u hr (effectiveDir_self hU.roles.wf h)) (fun b b' hb => ?_)
  · obtain ⟨h1, h2⟩ := List.mem_filter.1 he
    obtain ⟨⟨b, hb⟩, h3⟩ := mem_outside.1 h1
    exact hign e b hb (by simpa using h2) h3
  · simp only [hb u rfl]
    simp [Ctx]

/-- **C96** Every reasoning pattern that holds for a decision gives it an effective path to a utility of its owner. -/
theorem C96_pattern_has_path {m : Macid} {E : List Node} {d : Node}
    (h : m.DirectEffect d ∨ m.Manipulates E d ∨ m.Signals E d ∨ m.RevealsLoosely E d) :
    ∃ a u, m.role d = .decision a ∧ m.role u = .utility a ∧ m.EffectiveDir E d u := by
  have sways : ∀ {a b ab u}, m.Sways E d a b ab u → m.EffectiveDir E d u := fun hs =>
    effectiveDir_trans (decisionFree_effective hs.free (fun _ _ => hs.effective)) hs.path
  rcases h with ⟨a, u, h1, h2, h3⟩ | ⟨a, b, ab, u, ub, hs, -⟩ | ⟨a, b, ab, u, ub, hs, -⟩ | ⟨a, b, ab, u, ub, hs, -⟩
  · exact ⟨a, u, h1, h2, decisionFree_effective h3 (fun c hc => by rw [h2] at hc; simp at hc)⟩
  · exact ⟨a, u, hs.owner, hs.utility, sways hs⟩
  · exact ⟨a, u, hs.owner, hs.utility, sways hs⟩
  · exact ⟨a, u, hs.owner, hs.utility, sways hs⟩

/-- **C96** Every decision that `get_reasoning_patterns` lists has a directed path to a utility of its owner on which all later decisions
are listed as well. -/
theorem C96_listed {m : Macid} (hc : m.Consistent) (hp : ∀ b ∈ m.decisions, m.Playable b) {ord : SetOrder} (ho : ord.Valid)
    {setOrd : List Node → List Node} (hso : ∀ l, (setOrd l).Perm l) {k : Nat} (hk : m.decisions.length < k) {M : Motivations}
    (h : getReasoningPatterns k ord setOrd m = .ok (some M)) {d : Node} (hd : d ∈ M.dirEffect ++ M.sig ++ M.manip ++ M.revDen) :
    ∃ a u, m.role d = .decision a ∧ m.role u = .utility a ∧ m.EffectiveDir (M.dirEffect ++ M.sig ++ M.manip ++ M.revDen) d u := by
  obtain ⟨E, h1, h2, h3, h4, h5, h6, h7, h8⟩ := C62_result ord hso hc k hk h
  have hE : ∀ e ∈ E, e ∈ m.g.nodes := fun e he => hc.nodes e (Or.inl (h2 e he))
  have hdE := h3.mem_iff.1 hd
  have hpd := hp d (h2 d hdE)
  have : m.DirectEffect d ∨ m.Manipulates E d ∨ m.Signals E d ∨ m.RevealsLoosely E d := by
    simp only [List.mem_append] at hd
    rcases hd with ((hd | hd) | hd) | hd
    · obtain ⟨b, q1, q2⟩ := (C60_direct_effect hc d).1 hpd
      rw [((h4 d).1 hd).2] at q1
      cases q1
      exact Or.inl (q2.1 rfl)
    · exact Or.inr (Or.inr (Or.inl ((C61_signaling hc hp ho hpd hE).1 ((h5 d).1 hd).2.2)))
    · obtain ⟨b, q1, q2⟩ := C60_manipulation hc hp hpd hE
      rw [((h6 d).1 hd).2.2.2] at q1
      cases q1
      exact Or.inr (Or.inl (q2.1 rfl))
    · obtain ⟨b, q1, q2⟩ := C61_revealing_or_denying hc hp ho hpd hE
      rw [h8 d hd] at q1
      cases q1
      exact Or.inr (Or.inr (Or.inr (q2.1 rfl)))
  obtain ⟨a, u, q1, q2, p, q3, q4⟩ := C96_pattern_has_path this
  exact ⟨a, u, q1, q2, p, q3, fun v hv b hb => h3.mem_iff.2 (q4 v hv b hb)⟩

/-! ## Direct effect -/

theorem directEffect_true {m : Macid} (hc : m.Consistent) {d : Node} (h : directEffect m d = .ok true) : m.DirectEffect d := by
  by_cases hp : m.Playable d
  · obtain ⟨b, h1, h2⟩ := (C60_direct_effect hc d).1 hp
    rw [h] at h1
    exact h2.1 (by simpa using h1.symm)
  · rw [(C60_direct_effect hc d).2 hp] at h; simp at h

theorem directEffect_false {m : Macid} (hc : m.Consistent) {d : Node} (h : directEffect m d = .ok false) : ¬ m.DirectEffect d := by
  by_cases hp : m.Playable d
  · obtain ⟨b, h1, h2⟩ := (C60_direct_effect hc d).1 hp
    rw [h] at h1
    intro q
    have := h2.2 q
    rw [this] at h1
    simp at h1
  · rw [(C60_direct_effect hc d).2 hp] at h; simp at h

/-- **C96** If `direct_effect` is False then, whatever the CPDs, the choice made at the decision does not matter for its owner when the
other decisions pay no attention to what they observe. -/
theorem C96_no_direct_effect {game : Net} (hU : game.Usable) {a : Agent} {d : Node} (hd : game.m.role d = .decision a)
    (h : directEffect game.m d = .ok false) (hign : ∀ e b, game.m.role e = .decision b → e ≠ d → game.Ignores e)
    {x y : Outcome} (hx : x ∈ game.dom d) (hy : y ∈ game.dom d) : game.EUDo [(d, x)] a = game.EUDo [(d, y)] a := by
  refine C96_no_influence hU (E := []) (fun u hu hE => directEffect_false hU.roles h ⟨a, u, hd, hu, ?_⟩) (fun e b he hed _ => hign e b he hed)
    (hU.roles.nodes d (Or.inl (decisions_role.2 ⟨a, hd⟩))) hx hy
  exact (decisionFree_iff (by rintro rfl; rw [hd] at hu; simp at hu) (fun b hb => by rw [hu] at hb; simp at hb)).2 hE

/-- **C96** If `direct_effect` is True, the diagram can be given CPDs under which one choice at the decision is better for its owner than
another, whatever decision rules are used at all decisions. -/
theorem C96_direct_effect {net : Net} (hfr : net.Fresh) (hc : net.m.Consistent) (hb : net.base = Macid.new ∨ net.base = Macid.newCid) (hst : net.Staffed)
    {d : Node} (h : directEffect net.m d = .ok true) :
    ∃ rels game, net.addCpds rels = (game, .ok ()) ∧ game.m = net.m ∧ game.Usable ∧ ∃ a x y, game.m.role d = .decision a ∧
      game.IntOk [(d, x)] ∧ game.IntOk [(d, y)] ∧
      ∀ n : Net, n.Usable → OnlyRules game game.m.decisions n → n.EUDo [(d, x)] a < n.EUDo [(d, y)] a := by
  have hw := hc.wf
  obtain ⟨a, u, hd, hu, hfree⟩ := directEffect_true hc h
  have hdu : d ≠ u := by rintro rfl; rw [hd] at hu; simp at hu
  have hun : ∀ b, net.m.role u ≠ .decision b := fun b hb => by rw [hu] at hb; simp at hb
  obtain ⟨k, f, f0, fk, fs⟩ := exists_walk (effectiveDir_iff.1 ((decisionFree_iff hdu hun).1 hfree))
  have fe : ∀ j < k, net.g.Edge (f j) (f (j + 1)) := fun j hj => (mem_cutGraph.1 (fs j hj)).1
  have fnd : ∀ j, 0 < j → j ≤ k → ∀ b, net.m.role (f j) ≠ .decision b := by
    intro j h0 hj b hb
    have := (mem_cutGraph.1 (fs (j - 1) (by omega))).2
    rw [show j - 1 + 1 = j by omega] at this
    exact this (mem_outside.2 ⟨⟨b, hb⟩, by simp⟩)
  have hdn : d ∈ net.g.nodes := hc.nodes d (Or.inl (decisions_role.2 ⟨a, hd⟩))
  have hf : ∀ j ≤ k, f j ∈ net.g.nodes := by
    intro j hj
    by_cases e : j = 0
    · subst e; rw [f0]; exact hdn
    · have := fe (j - 1) (by omega)
      rw [show j - 1 + 1 = j by omega] at this
      exact (hw.edgeNodes _ _ this).2
  obtain ⟨rels, game, a1, a2, _, _, _, a6, _, a8, a9⟩ := Net.allowing hfr hw (free := fun v => ∃ b, net.m.role v = .decision b) (fun _ => (relay k f false).dom_sorted)
    (fun _ => (relay k f false).dom_ne) (Wiring.allows hw (relay_local fe))
  have hU := a9 hc hb hst
  have hg : game.g = net.g := by show game.m.g = net.m.g; rw [a2]
  have hpay : ∀ j op, pay k f j op ∈ (relay k f false).dom := fun j op => Wiring.enc_dom _ _
  have hIn : ∀ n : Net, OnlyRules game game.m.decisions n → ∀ op, n.IntOk [(d, pay k f 0 op)] := by
    intro n hn op
    refine ⟨by simp, fun p hp => ?_⟩
    rw [List.mem_singleton] at hp
    subst hp
    refine ⟨?_, by rw [hn.dom, a6 d hdn]; exact hpay _ _, Or.inl ?_⟩
    · show d ∈ n.m.g.nodes
      rw [hn.m, a2]; exact hdn
    · rw [hn.dom, a6 d hdn]
      exact (relay k f false).dom_sorted.imp (fun h => le_of_lt h)
  refine ⟨rels, game, a1, a2, hU, a, pay k f 0 false, pay k f 0 true, by rw [a2]; exact hd, hIn game (.rfl' _ _) _, hIn game (.rfl' _ _) _, fun n hn hr => ?_⟩
  have hnm : n.m = net.m := by rw [hr.m, a2]
  have hng : n.g = net.g := by show n.m.g = net.m.g; rw [hnm]
  have hkern : ∀ v ∈ net.g.nodes, (∀ b, net.m.role v ≠ .decision b) → ∀ c, n.InDom c → (0 < n.kernel v c ↔ (relay k f false).R v c) := by
    intro v hv hvd c hc'
    rw [hr.kernel (fun q => by rw [a2] at q; obtain ⟨b, hb⟩ := decisions_role.1 q; exact hvd b hb)]
    exact a8 v hv (fun ⟨b, hb⟩ => hvd b hb) c ((hr.inDom c).1 hc')
  have hdesc : ∀ q, 0 < q → q ≤ k → f q ≠ d := by
    intro q h0 hq e
    exact fnd q h0 hq a (e ▸ hd)
  have hon : ∀ j, 0 < j → j ≤ k → ∀ op, n.Mean [(d, pay k f 0 op)] [] (f j) = pay k f j op := by
    intro j h0 hj op
    rw [relay_do hn (k := k) (f := f) (fun j hj => by rw [hng]; exact fe j hj) (fun j hj => by rw [hng]; exact hf j hj) (hIn n hr op) (i := 0) (j := j)
      (val := pay k f 0 op) (by omega) hj (by rw [f0]; simp) (fun j' h1 h2 => hkern _ (hf j' (by omega)) (fnd j' h1 (by omega)))
      (fun j' h1 h2 => by simpa using hdesc j' h1 (by omega)), if_neg (by omega), pay_bit (by omega)]
  have hoff : ∀ w, net.m.role w = .utility a → (∀ j ≤ k, f j ≠ w) → ∀ op, n.Mean [(d, pay k f 0 op)] [] w = 0 := by
    intro w hwr hwf op
    have hwn : w ∈ net.g.nodes := hc.nodes w (Or.inr (Dict.mem_keys.2 ⟨a, (role_utility hc).1 hwr⟩))
    have hi := hIn n hr op
    have hB := doBN_prob hn.good hn.normalised hi.1 (fun p hp => (hi.2 p hp).2.1)
    rw [Mean_eq hn.good (fun p hp => (hi.2 p hp).1) (by rw [hng]; exact hwn)]
    unfold EW
    rw [PDo_do_pos hn hi, div_one]
    refine BN.W_impossible hB (fun b hb => ?_)
    simp only [Ctx, List.all_nil, if_true, mul_one]
    have hwd : w ≠ d := by rintro rfl; rw [hd] at hwr; simp at hwr
    have := hb.2 w (by show w ∈ n.g.nodes; rw [hng]; exact hwn)
    change 0 < (if w ∈ [d] then _ else n.kernel w b) at this
    rw [if_neg (by simpa using hwd)] at this
    rw [((hkern w hwn (fun b hb => by rw [hwr] at hb; simp at hb) b hb.1).1 this).1]
    refine Wiring.enc_false _ (fun i hi => ?_)
    unfold Wiring.here
    have : f i ≠ w := hwf i (Nat.le_of_lt_succ (List.mem_range.1 hi))
    show (decide (f i = w) && _) = false
    simp [this]
  rw [utils_eq, utils_eq]
  have hut : ∀ w ∈ n.utils a, net.m.role w = .utility a := fun w hw' => by rw [← hnm]; exact (mem_utils hn).1 hw'
  have hk0 : 0 < k := Nat.pos_of_ne_zero (by rintro rfl; exact hdu (f0.symm.trans fk))
  refine List.sum_lt_sum _ _ (fun w hw' => ?_) ⟨u, (mem_utils hn).2 (by rw [hnm]; exact hu), ?_⟩
  · by_cases hex : ∃ j, j ≤ k ∧ f j = w
    · obtain ⟨j, hj, rfl⟩ := hex
      have h0 : 0 < j := Nat.pos_of_ne_zero (by rintro rfl; have := hut _ hw'; rw [f0, hd] at this; simp at this)
      rw [hon j h0 hj, hon j h0 hj, pay_false]
      exact Wiring.enc_nonneg _ _
    · push Not at hex
      rw [hoff w (hut w hw') hex, hoff w (hut w hw') hex]
  · rw [← fk, hon k hk0 (le_refl _), hon k hk0 (le_refl _), pay_false]
    have := pay_true (f := f) (le_refl k)
    linarith

/-- **C96** `direct_effect` is True exactly if the diagram can be given CPDs under which two choices at the decision differ for its owner
whatever decision rules are used. -/
theorem C96_iff {net : Net} (hfr : net.Fresh) (hc : net.m.Consistent) (hb : net.base = Macid.new ∨ net.base = Macid.newCid) (hst : net.Staffed)
    {d : Node} {a : Agent} (hd : net.m.role d = .decision a) (ha : a ∈ net.m.agents) :
    directEffect net.m d = .ok true ↔ ∃ rels game, net.addCpds rels = (game, .ok ()) ∧ game.m = net.m ∧ game.Usable ∧ ∃ x y,
      game.IntOk [(d, x)] ∧ game.IntOk [(d, y)] ∧
      ∀ n : Net, n.Usable → OnlyRules game game.m.decisions n → n.EUDo [(d, x)] a ≠ n.EUDo [(d, y)] a := by
  constructor
  · intro h
    obtain ⟨rels, game, h1, h2, h3, a', x, y, h4, h5, h6, h7⟩ := C96_direct_effect hfr hc hb hst h
    rw [h2, hd] at h4
    cases h4
    exact ⟨rels, game, h1, h2, h3, x, y, h5, h6, fun n hn hr => ne_of_lt (h7 n hn hr)⟩
  · rintro ⟨rels, game, h1, h2, hU, x, y, hx, hy, hall⟩
    obtain ⟨b, h3, -⟩ := (C60_direct_effect hc d).1 ⟨a, hd, ha⟩
    cases b with
    | true => exact h3
    | false =>
      exfalso
      have hB := bn_prob hU.good hU.normalised
      obtain ⟨z, hz⟩ := BN.exists_possible hB
      have hdec : ∀ e ∈ game.m.decisions, e ∈ game.g.nodes := fun e he => hU.roles.nodes e (Or.inl he)
      obtain ⟨n, n1, n2, n3⟩ := realize game.m.decisions hU hU.roles.dec.nodeKeys hdec (σ := fun e b => if b e = z e then 1 else 0)
        (fun e he => BN.isRule_ind hB (hdec e he) (hz.1 e (hdec e he)))
      refine hall n n1 n2 (C96_no_direct_effect n1 (a := a) (by rw [n2.m, h2]; exact hd) (by rw [n2.m, h2]; exact h3) (fun e b he _ c c' hc' hc'' hcc => ?_)
        (by rw [n2.dom]; exact (hx.2 (d, x) (by simp)).2.1) (by rw [n2.dom]; exact (hy.2 (d, y) (by simp)).2.1))
      have he' : e ∈ game.m.decisions := decisions_role.2 ⟨b, by rw [← n2.m]; exact he⟩
      rw [n3 e he' c ((n2.inDom c).1 hc'), n3 e he' c' ((n2.inDom c').1 hc'')]
      simp only [hcc]

/-- **C96** The expected utilities compared above are the ones `expected_utility` returns for an intervention. -/
theorem C96_expected_utility {game : Net} (hU : game.Usable) {pick : Pick} {ord : List Node → List Node} (hord : ∀ l, (ord l).Perm l)
    {int : List (Node × Outcome)} (hi : game.IntOk int) {agent : Agent} {r : Rat} (h : (game.expectedUtility pick ord [] int agent).2 = .ok r) :
    r = game.EUDo int agent := by
  obtain ⟨us, h1, h2⟩ := C43_expected_utility hU hord hi h (by rw [PDo_do_pos hU hi]; norm_num)
  unfold EUDo
  rw [h1]; exact h2

/-! ## Cases that meet the hypotheses -/

/-- agent 0 decides at `D`, agent 1 sees this and decides at `E`; `E` matters to agent 0, `D` and `E` to agent 1 -/
def exBoss : Macid :=
  ⟨⟨["D", "E", "U", "V"], [("D", "E"), ("E", "U"), ("D", "V"), ("E", "V")]⟩, [(0, ["D"]), (1, ["E"])], [(0, ["U"]), (1, ["V"])], [("D", 0), ("E", 1)],
    [("U", 0), ("V", 1)]⟩

theorem exBoss_consistent : exBoss.Consistent :=
  C15_constructor_consistent [("D", "E"), ("E", "U"), ("D", "V"), ("E", "V")] [(0, ["D"]), (1, ["E"])] [(0, ["U"]), (1, ["V"])] _
    (by decide +kernel) (by decide) (by decide) (by decide) (by decide)

theorem exBoss_staffed : Net.Staffed ⟨exBoss, [], [], [], Macid.new⟩ := by
  refine ⟨fun a => ?_, fun a ha => Or.inl ?_⟩
  · simp [exBoss, Dict.keys]
  · have : a = 0 ∨ a = 1 := by simpa [exBoss, Dict.keys] using ha
    rcases this with rfl | rfl
    · exact ⟨⟨"D", by decide⟩, ⟨"U", by decide⟩⟩
    · exact ⟨⟨"E", by decide⟩, ⟨"V", by decide⟩⟩

/-- the hypotheses of `C96_direct_effect` and `C96_iff` are met by the diagram: `E` has a direct effect, `D` has none -/
example : ∃ net : Net, net.Fresh ∧ net.m.Consistent ∧ net.Staffed ∧ directEffect net.m "E" = .ok true ∧ directEffect net.m "D" = .ok false :=
  ⟨⟨exBoss, [], [], [], Macid.new⟩, ⟨rfl, rfl, rfl⟩, exBoss_consistent, exBoss_staffed, by decide +kernel, by decide +kernel⟩

/-- the hypotheses of `C96_listed` are met by the diagram: both decisions are listed -/
example : (∀ b ∈ exBoss.decisions, exBoss.Playable b) ∧ getReasoningPatterns 3 SetOrder.id id exBoss = .ok (some ⟨["E"], [], ["D"], []⟩) := by
  refine ⟨fun b hb => ?_, by decide +kernel⟩
  have : b = "D" ∨ b = "E" := by simpa [exBoss, Macid.decisions, Dict.keys] using hb
  rcases this with rfl | rfl
  · exact ⟨0, by decide +kernel, by decide +kernel⟩
  · exact ⟨1, by decide +kernel, by decide +kernel⟩

/-- the hypotheses of `C96_no_direct_effect` and `C96_no_influence` are met by a game on the diagram -/
example : ∃ game : Net, game.Usable ∧ game.m.role "D" = .decision 0 ∧ directEffect game.m "D" = .ok false ∧
    (∀ e b, game.m.role e = .decision b → e ≠ "D" → game.Ignores e) ∧ ∃ x ∈ game.dom "D", ∃ y ∈ game.dom "D", x ≠ y := by
  let net : Net := ⟨exBoss, [], [], [], Macid.new⟩
  have hc : net.m.Consistent := exBoss_consistent
  let f : Nat → Node := fun _ => "D"
  obtain ⟨rels, game, -, a2, _, _, _, a6, _, -, a9⟩ := Net.allowing (net := net) ⟨rfl, rfl, rfl⟩ hc.wf (free := fun _ => False) (fun _ => (relay 0 f false).dom_sorted)
    (fun _ => (relay 0 f false).dom_ne) (Wiring.allows hc.wf (relay_local (by simp)))
  have hU := a9 hc (Or.inl rfl) exBoss_staffed
  have hB := bn_prob hU.good hU.normalised
  obtain ⟨z, hz⟩ := BN.exists_possible hB
  have hdec : ∀ e ∈ game.m.decisions, e ∈ game.g.nodes := fun e he => hU.roles.nodes e (Or.inl he)
  obtain ⟨n, n1, n2, n3⟩ := realize game.m.decisions hU hU.roles.dec.nodeKeys hdec (σ := fun e b => if b e = z e then 1 else 0)
    (fun e he => BN.isRule_ind hB (hdec e he) (hz.1 e (hdec e he)))
  have hm : n.m = exBoss := by rw [n2.m, a2]
  have hD : n.dom "D" = (relay 0 f false).dom := by rw [n2.dom, a6 "D" (by decide)]
  refine ⟨n, n1, by rw [hm]; decide +kernel, by rw [hm]; decide +kernel, fun e b he _ c c' hc' hc'' hcc => ?_, pay 0 f 0 false, by rw [hD]; exact Wiring.enc_dom _ _,
    pay 0 f 0 true, by rw [hD]; exact Wiring.enc_dom _ _, ?_⟩
  · have he' : e ∈ game.m.decisions := decisions_role.2 ⟨b, by rw [← n2.m]; exact he⟩
    rw [n3 e he' c ((n2.inDom c).1 hc'), n3 e he' c' ((n2.inDom c').1 hc'')]
    simp only [hcc]
  · rw [pay_false]
    have := pay_true (f := f) (le_refl 0)
    intro e
    rw [← e] at this
    norm_num at this

end Verif

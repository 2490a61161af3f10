import Verif.Spec.Existence
import Verif.Lemmas.Keyed
import Verif.Props.Spe

/-!
# When equilibria are found (C97)
-/

namespace Verif

open Graph Relation Macid Net

namespace Net

/-- the first action for certain -/
def firstAction (s : Infoset) : List Rat := 1 :: List.replicate (s.actions.length - 1) 0

/-- rules can be read as behaviour -/
theorem behavior_of {net net' : Net} (hU : net.Usable) (hU' : net'.Usable) {decs : List Node} {agents : List Agent} {nodes : List Node} {t : Efg}
    (ht : IsTree net decs agents nodes t) (hl : Labelled net decs t) (hk : t.Keyed) (hdist : net.Distinct decs)
    (hm : ∀ v ∈ nodes, v ∈ net.g.nodes) (hdn : ∀ d ∈ decs, d ∈ nodes) (hO : OnlyRules net decs net') :
    ∃ b, IsBehavior t b ∧ PlaysAs net' decs t b ∧ (Deterministic net' decs → Sharp t b) := by
  classical
  have hG := hU.good
  let Q : Nat → Node → Assign → Prop := fun i d a => d ∈ decs ∧ (∀ p, net.g.Edge p d → a p ∈ net.dom p) ∧
    ∃ agent, net.m.role d = .decision agent ∧ t.keys.get? (agent, Given (net.g.parents d) a) = some i
  let rule : Node → Assign → List Rat := fun d a => (net.dom d).map (fun x => net'.kernel d (Assign.upd a d x))
  have hdn' : ∀ d ∈ decs, d ∈ net'.g.nodes := fun d hd => by rw [hO.g]; exact hm d (hdn d hd)
  have hwell : ∀ i d a d' a', Q i d a → Q i d' a' → rule d a = rule d' a' := by
    rintro i d a d' a' ⟨q1, q2, ag, q3, q4⟩ ⟨r1, r2, ag', r3, r4⟩
    have := ht.keys _ _ _ q4 r4
    simp only [Prod.mk.injEq] at this
    obtain ⟨rfl, this⟩ := this
    obtain ⟨g1, g2⟩ := given_eq_map this
    have hdd : d = d' := hdist d q1 d' r1 (by rw [role_decision.1 q3, role_decision.1 r3]) g1
    subst hdd
    apply List.map_congr_left
    intro x _
    apply kernel_depends hU'.good (hdn' d q1)
    rintro u (rfl | hu)
    · simp
    · by_cases e : u = d
      · subst e; simp
      · rw [Assign.upd_ne _ _ e, Assign.upd_ne _ _ e]
        rw [hO.g] at hu
        exact List.map_inj_left.1 g2 u (Graph.mem_parents.2 hu)
  let b : Behavior := fun i => if h : ∃ d a, Q i d a then rule h.choose h.choose_spec.choose
    else (t.infosets[i]?).elim [] firstAction
  have hb1 : ∀ i d a, Q i d a → b i = rule d a := by
    intro i d a hq
    have h : ∃ d a, Q i d a := ⟨d, a, hq⟩
    simp only [b, dif_pos h]
    exact hwell i _ _ _ _ h.choose_spec.choose_spec hq
  have hb2 : ∀ i s, (¬ ∃ d a, Q i d a) → t.infosets[i]? = some s → b i = firstAction s := fun i s h hs => by
    simp only [b, dif_neg h, hs, Option.elim]
  have hprob := bn_prob hU'.good hU'.normalised
  refine ⟨b, fun i s hs => ?_, ?_, fun hdet i s hs x hx => ?_⟩
  · by_cases h : ∃ d a, Q i d a
    · obtain ⟨d, a, hq⟩ := h
      rw [hb1 i d a hq]
      obtain ⟨q1, q3, ag, q2, q4⟩ := hq
      obtain ⟨_, i', s', k1, k2, k3, k4, _⟩ := infoset_of hG ht hl hdist hm hdn q1 q2 a q3
      rw [q4] at k1; cases k1
      rw [hs] at k2; cases k2
      refine ⟨by simp [rule, k4], ?_, ?_⟩
      · intro x hx
        obtain ⟨y, hy, rfl⟩ := List.mem_map.1 hx
        apply hprob.nonneg d (hdn' d q1)
        rintro u hu
        show Assign.upd a d y u ∈ net'.dom u
        rw [hO.dom]
        by_cases e : u = d
        · subst e; simpa using hy
        · rw [Assign.upd_ne _ _ e]
          rcases hu with hu | hu
          · exact absurd hu e
          · have hu : net'.g.Edge u d := hu
            rw [hO.g] at hu
            exact q3 u hu
      · have := hprob.norm d (hdn' d q1) a (fun p hp' => by
          have hu : net'.g.Edge p d := hp'
          rw [hO.g] at hu
          show a p ∈ net'.dom p
          rw [hO.dom]
          exact q3 p hu)
        have e : net'.bn.dom d = net.dom d := by show net'.dom d = _; rw [hO.dom]
        rw [e] at this
        exact this
    · rw [hb2 i s h hs]
      obtain ⟨k, hk'⟩ := hk i s hs
      obtain ⟨s', e1, _, d, _, hd, _, _, _, hact⟩ := hl k i hk'
      rw [hs] at e1; cases e1
      have hne : s.actions ≠ [] := by rw [hact hdist]; exact (dom_props hG (hm d (hdn d hd))).2
      have hpos : 0 < s.actions.length := List.length_pos_of_ne_nil hne
      refine ⟨by simp [firstAction]; omega, fun x hx => ?_, by simp [firstAction]⟩
      simp only [firstAction, List.mem_cons, List.mem_replicate] at hx
      rcases hx with rfl | ⟨_, rfl⟩ <;> norm_num
  · intro d hd ag hr a ha i hi
    rw [hO.g] at ha hi
    rw [hO.dom] at ha ⊢
    rw [hO.m] at hr
    exact hb1 i d a ⟨hd, ha, ag, hr, hi⟩
  · by_cases h : ∃ d a, Q i d a
    · obtain ⟨d, a, hq⟩ := h
      rw [hb1 i d a hq] at hx
      obtain ⟨q1, q3, _⟩ := hq
      obtain ⟨y, hy, rfl⟩ := List.mem_map.1 hx
      obtain ⟨φ, hφ⟩ := hdet d q1
      obtain ⟨a', ha', hag'⟩ := exists_inDom hU'.good (Assign.upd a d y) (fun p => p = d ∨ net'.g.Edge p d) (fun p hp _ => by
        rw [hO.dom]
        by_cases e : p = d
        · subst e; simpa using hy
        · rw [Assign.upd_ne _ _ e]
          have hp := hp.resolve_left e
          rw [hO.g] at hp
          exact q3 p hp)
      rw [← kernel_depends hU'.good (hdn' d q1) a' _ (fun u hu => hag' u hu), hφ a' ha']
      split
      · exact Or.inr rfl
      · exact Or.inl rfl
    · rw [hb2 i s h hs] at hx
      simp only [firstAction, List.mem_cons, List.mem_replicate] at hx
      rcases hx with rfl | ⟨_, rfl⟩
      · exact Or.inr rfl
      · exact Or.inl rfl

/-- the search comes up empty only if the subgame has no equilibrium in deterministic rules -/
theorem ne_in_sg_found {net : Net} (hU : net.Usable) (hnames : NamesOk net.g) {pick : Pick} {tpick : List Node → Nat}
    {ord setOrd : List Node → List Node} (hord : ∀ l, (ord l).Perm l) (hset : ∀ l, (setOrd l).Perm l) {agentOrd : List Agent → List Agent}
    (hao : ∀ l, (agentOrd l).Perm l) {run : Efg → Solver → Py (List Behavior)} {conv : Behavior → Behavior} (hrun : FindsPure run)
    {override : Option String} (hov : Standard override) {decs : List Node} (hnd : decs.Nodup) (ha : ∀ d ∈ decs, d ∈ net.m.decisions)
    (hm : ∀ v ∈ net.g.nodes, ¬ net.m.InGame decs v → (∃ w, net.g.Edge v w ∧ net.m.InGame decs w) →
      net.Own v ∧ (net.dom v).Pairwise (· ≤ ·))
    (hu : ∀ d ∈ decs, ∃ a u, net.m.role d = .decision a ∧ net.m.role u = .utility a ∧ net.g.Desc d u)
    (hleaf : ∀ u a, net.m.role u = .utility a → ∀ w, ¬ net.g.Edge u w)
    (hj : ∀ sg, createSubgame pick setOrd net decs = .ok sg → Joined sg.g ∧ sg.Distinct decs)
    {found : List (List Cpd)} (h : getNeInSg pick tpick ord setOrd agentOrd run conv override net decs = .ok found) :
    ∃ sg, createSubgame pick setOrd net decs = .ok sg ∧ sg.Usable ∧ net.m.IsSubgame decs sg.m ∧
      ∀ sg', sg'.Usable → OnlyRules sg decs sg' → Deterministic sg' decs →
        (∀ a d, d ∈ decs → net.m.role d = .decision a → NoGain sg' decs [a]) → found ≠ [] := by
  obtain ⟨sg, h1, hUs, hsub, hprobs, _⟩ := subgame_usable hU hnames pick hset hnd ha hm hu hleaf
  obtain ⟨hjoin, hdist⟩ := hj sg h1
  have hdsg : ∀ d ∈ decs, d ∈ sg.g.nodes := fun d hd => by
    obtain ⟨a, u, q1, q2, q3⟩ := hu d hd
    exact (C63_members hU hnames hset hnd ha h1).2 d hd a u q1 q2 q3
  refine ⟨sg, h1, hUs, hsub, fun sg' hU' hO hdet hN => ?_⟩
  unfold getNeInSg at h
  split at h
  · simp at h
  rename_i owners howners
  dsimp only at h
  rw [h1] at h
  simp only at h
  split at h
  · simp at h
  rename_i sg1 t ht
  split at h
  · simp at h
  rename_i bs hbs
  have hkey := macidToEfg_keyed ht
  obtain ⟨rfl, nodes, n1, n2, n3, htree, hl⟩ := C66_game_tree hUs hjoin hord ht
  rw [mapPy_ok_iff] at h
  have hdecn : ∀ d ∈ decs, d ∈ nodes := fun d hd => (n2 d).2 (Or.inl hd)
  have hm' : ∀ v ∈ nodes, v ∈ sg1.g.nodes := by
    intro v hv
    rcases (n2 v).1 hv with hd | ⟨d, hd, he⟩
    · exact hdsg v hd
    · exact (hUs.good.wf.edgeNodes v d he).1
  obtain ⟨b, hb, hplay, hsharp⟩ := behavior_of hUs hU' htree hl hkey hdist hm' hdecn hO
  have hnash : IsNash t b := (C76_equilibria hUs hU' htree hl hdist hnd n1 hm' hdecn hO hb hplay).2 (by
    intro a haa
    rw [(hao _).mem_iff, List.mem_dedup] at haa
    rw [mapPy_ok_iff] at howners
    obtain ⟨d, hd, e⟩ := forall₂_mem_right howners haa
    rw [Dict.get_ok] at e
    exact hN a d hd (role_decision.2 e) a (by simp))
  have hfull : ∀ s bs', s = .enumpure ∨ s = .enummixed → run t s = .ok bs' → bs' ≠ [] := fun s bs' hs hr =>
    hrun t s bs' hs hr ⟨b, hb, hsharp hdet, hnash⟩
  have hbs' : bs ≠ [] := by
    unfold neSolver at hbs
    dsimp only at hbs
    split at hbs
    · simp at hbs
    rename_i s hs
    have hs' : s = .enumpure ∨ s = .enummixed := by
      rcases hov with rfl | rfl | rfl
      · by_cases q : t.players.length = 2 <;> simp [chooseSolver, q, Solver.ofName] at hs <;> simp [← hs]
      · simp [chooseSolver, Solver.ofName] at hs
        simp [← hs]
      · by_cases q : t.players.length = 2 <;> simp [chooseSolver, q, Solver.ofName] at hs <;> simp [← hs]
    split at hbs
    · simp at hbs
    rename_i found' hf
    have hne := hfull s found' hs' hf
    rw [if_neg (by
      rintro ⟨_, q, _⟩
      exact hne (List.length_eq_zero_iff.1 q))] at hbs
    simp only [Except.ok.injEq] at hbs
    subst hbs
    simpa using hne
  intro e
  subst e
  cases h
  exact hbs' rfl

theorem speStep_nonempty {ne : Net → List Node → Py (List (List Cpd))} {macid : Net} {group W : List Node} {level : List (List Cpd)} {N N' : Net}
    {level' : List (List Cpd)} (hN : N.Usable) (hO : OnlyRules macid W N) (hp : ∀ p ∈ level, PolicyOk macid p ∧ (p.map (·.var)).Perm W)
    (hne : ∀ p ∈ level, ∀ n, n.Usable → OnlyRules macid W n → (∀ c ∈ p, n.cpds.get? c.var = some c) → ∀ found, ne n group = .ok found → found ≠ [])
    (hl : level ≠ []) (h : speStep ne group N level = .ok (N', level')) : level' ≠ [] := by
  match level, hl with
  | p :: ps, _ =>
    obtain ⟨hok, hperm⟩ := hp p (by simp)
    obtain ⟨n, n1, n2, n3, n4⟩ := addPolicy_usable p hN (hok.only hO)
    simp only [speStep] at h
    rw [n1] at h
    simp only at h
    split at h
    · simp at h
    rename_i found hf
    split at h
    · simp at h
    simp only [Except.ok.injEq, Prod.mk.injEq] at h
    obtain ⟨_, rfl⟩ := h
    have := hne p (by simp) n n2 (hO.trans n3 (fun _ h => h) (fun w hw => hperm.mem_iff.1 hw)) n4 found hf
    simp [this]

theorem speLoop_nonempty {ne : Net → List Node → Py (List (List Cpd))} {macid : Net}
    {order : List (List Node)} (hord : order.flatten.Nodup)
    (hne : ∀ g ∈ order, ∀ (p : List Cpd) (n : Net) (done : List (List Node)), Branch ne macid done p → n.Usable → OnlyRules macid (p.map (·.var)) n →
      (∀ c ∈ p, n.cpds.get? c.var = some c) → ∀ found, ne n g = .ok found → found ≠ [] ∧ ∀ q ∈ found, PolicyOk macid q ∧ (∀ c ∈ q, c.kind ≠ .tabular) ∧
        (q.map (·.var)).Perm g) :
    ∀ (todo done : List (List Node)) {N : Net} {level out : List (List Cpd)}, order = done ++ todo → N.Usable →
    OnlyRules macid done.flatten N → (∀ p ∈ level, Branch ne macid done p) → level ≠ [] → speLoop ne N level todo = .ok out → out ≠ []
  | [], done, N, level, out, ho, _, _, hl, hle, h => by
    simp only [speLoop, Except.ok.injEq] at h
    subst h
    exact hle
  | g :: todo, done, N, level, out, ho, hN, hO, hl, hle, h => by
    simp only [speLoop] at h
    split at h
    · simp at h
    rename_i N' level' hs
    have hnd : done.flatten.Nodup := by
      rw [ho, List.flatten_append] at hord
      exact (List.nodup_append.1 hord).1
    have hok : ∀ p ∈ level, PolicyOk macid p := fun p hp => ⟨(hl p hp).perm.nodup_iff.2 hnd, (hl p hp).ok⟩
    obtain ⟨k1, k2, k3⟩ := speStep_branch level hN hO (fun p hp => ⟨hok p hp, (hl p hp).perm⟩) hs
    have hle' := speStep_nonempty hN hO (fun p hp => ⟨hok p hp, (hl p hp).perm⟩) (fun p hp n j1 j2 j3 found j4 =>
      (hne g (by rw [ho]; simp) p n done (hl p hp) j1 (j2.congr (fun w => (hl p hp).perm.mem_iff.symm)) j3 found j4).1) hle hs
    refine speLoop_nonempty hord hne todo (done ++ [g]) (by rw [ho]; simp) k1 (k2.mono (fun w hw => by simp [hw])) (fun x hx => ?_) hle' h
    obtain ⟨p, hp, n, found, q, j1, j2, j3, j4, j5, rfl⟩ := k3 x hx
    have j2' : OnlyRules macid (p.map (·.var)) n := j2.congr (fun w => (hl p hp).perm.mem_iff.symm)
    obtain ⟨i1, i2, i3⟩ := (hne g (by rw [ho]; simp) p n done (hl p hp) j1 j2' j3 found j4).2 q j5
    exact .snoc (hl p hp) j1 j2' j3 j4 j5 i1 i2 i3

/-- someone who owns all decisions has deterministic rules that cannot be improved -/
theorem exists_best {sg : Net} (hU : sg.Usable) {decs : List Node} (hnd : decs.Nodup) {agent : Agent}
    (hd : ∀ d b, sg.m.role d = .decision b ↔ d ∈ decs ∧ b = agent) :
    ∃ sg', sg'.Usable ∧ OnlyRules sg decs sg' ∧ Deterministic sg' decs ∧ NoGain sg' decs [agent] := by
  obtain ⟨r, ⟨n, n1, n2, rfl⟩, hmax⟩ := exists_maxEU hU (agent := agent) (fun d b h => ((hd d b).1 h).2)
  have hmem : ∀ w, w ∈ sg.m.decisions ↔ w ∈ decs := fun w => by
    rw [decisions_role]
    exact ⟨fun ⟨a, h⟩ => ((hd w a).1 h).1, fun h => ⟨agent, (hd w agent).2 ⟨h, rfl⟩⟩⟩
  obtain ⟨n', φ, k1, k2, k3, k4⟩ := pure_suffices (agent := agent) decs n1 (fun d h => by rw [n2.m]; exact (hd d agent).2 ⟨h, rfl⟩) hnd
  have hO : OnlyRules sg decs n' := (n2.congr hmem).trans k2 (fun _ h => h) (fun _ h => h)
  refine ⟨n', k1, hO, fun d h => ⟨φ d, (k3 d h).1⟩, fun a ha n'' hU'' hO'' => ?_⟩
  rw [List.mem_singleton] at ha
  subst ha
  refine le_trans (hmax n'' hU'' ?_) k4
  exact (hO.trans hO'' (fun _ h => h) (fun w hw => (List.mem_filter.1 hw).1)).congr (fun w => (hmem w).symm)

end Net

/-- **C97** When `get_ne_in_sg` returns an empty list, the subgame has no Nash equilibrium in deterministic rules. -/
theorem C97_none_found {net : Net} (hU : net.Usable) (hnames : NamesOk net.g) {pick : Pick} {tpick : List Node → Nat}
    {ord setOrd : List Node → List Node} (hord : ∀ l, (ord l).Perm l) (hset : ∀ l, (setOrd l).Perm l) {agentOrd : List Agent → List Agent}
    (hao : ∀ l, (agentOrd l).Perm l) {run : Efg → Solver → Py (List Behavior)} {conv : Behavior → Behavior} (hrun : FindsPure run)
    {override : Option String} (hov : Standard override) {decs : List Node} (hnd : decs.Nodup) (ha : ∀ d ∈ decs, d ∈ net.m.decisions)
    (hm : ∀ v ∈ net.g.nodes, ¬ net.m.InGame decs v → (∃ w, net.g.Edge v w ∧ net.m.InGame decs w) →
      net.Own v ∧ (net.dom v).Pairwise (· ≤ ·))
    (hu : ∀ d ∈ decs, ∃ a u, net.m.role d = .decision a ∧ net.m.role u = .utility a ∧ net.g.Desc d u)
    (hleaf : ∀ u a, net.m.role u = .utility a → ∀ w, ¬ net.g.Edge u w)
    (hj : ∀ sg, createSubgame pick setOrd net decs = .ok sg → Joined sg.g ∧ sg.Distinct decs)
    (h : getNeInSg pick tpick ord setOrd agentOrd run conv override net decs = .ok []) :
    ∃ sg, createSubgame pick setOrd net decs = .ok sg ∧ ∀ sg', sg'.Usable → OnlyRules sg decs sg' → Deterministic sg' decs →
      ∃ d ∈ decs, ∃ a, net.m.role d = .decision a ∧ ¬ NoGain sg' decs [a] := by
  obtain ⟨sg, h1, _, _, h2⟩ := ne_in_sg_found hU hnames hord hset hao hrun hov hnd ha hm hu hleaf hj h
  refine ⟨sg, h1, fun sg' k1 k2 k3 => ?_⟩
  by_contra hcon
  push Not at hcon
  exact h2 sg' k1 k2 k3 (fun a d hd hr => hcon d hd a hr) rfl

/-- **C97** When all decisions belong to one agent, `get_ne_in_sg` does not return an empty list. -/
theorem C97_one_owner {net : Net} (hU : net.Usable) (hnames : NamesOk net.g) {pick : Pick} {tpick : List Node → Nat}
    {ord setOrd : List Node → List Node} (hord : ∀ l, (ord l).Perm l) (hset : ∀ l, (setOrd l).Perm l) {agentOrd : List Agent → List Agent}
    (hao : ∀ l, (agentOrd l).Perm l) {run : Efg → Solver → Py (List Behavior)} {conv : Behavior → Behavior} (hrun : FindsPure run)
    {override : Option String} (hov : Standard override) {decs : List Node} (hnd : decs.Nodup) {agent : Agent}
    (hag : ∀ d ∈ decs, net.m.role d = .decision agent)
    (hm : ∀ v ∈ net.g.nodes, ¬ net.m.InGame decs v → (∃ w, net.g.Edge v w ∧ net.m.InGame decs w) →
      net.Own v ∧ (net.dom v).Pairwise (· ≤ ·))
    (hu : ∀ d ∈ decs, ∃ u, net.m.role u = .utility agent ∧ net.g.Desc d u)
    (hleaf : ∀ u a, net.m.role u = .utility a → ∀ w, ¬ net.g.Edge u w)
    (hj : ∀ sg, createSubgame pick setOrd net decs = .ok sg → Joined sg.g ∧ sg.Distinct decs)
    {found : List (List Cpd)} (h : getNeInSg pick tpick ord setOrd agentOrd run conv override net decs = .ok found) : found ≠ [] := by
  have ha : ∀ d ∈ decs, d ∈ net.m.decisions := fun d hd => decisions_role.2 ⟨agent, hag d hd⟩
  obtain ⟨sg, h1, hUs, hsub, h2⟩ := ne_in_sg_found hU hnames hord hset hao hrun hov hnd ha hm
    (fun d hd => by obtain ⟨u, q1, q2⟩ := hu d hd; exact ⟨agent, u, hag d hd, q1, q2⟩) hleaf hj h
  obtain ⟨sg', k1, k2, k3, k4⟩ := exists_best hUs hnd (agent := agent) (fun d b => by
    rw [hsub.decision]
    constructor
    · rintro ⟨hd, hr⟩
      rw [hag d hd] at hr
      cases hr
      exact ⟨hd, rfl⟩
    · rintro ⟨hd, rfl⟩
      exact ⟨hd, hag d hd⟩)
  refine h2 sg' k1 k2 k3 (fun a d hd hr => ?_)
  rw [hag d hd] at hr
  cases hr
  exact k4

/-- **C97** When decisions that rely on each other always belong to one agent, `get_spe` does not return an empty list: it finds a subgame
perfect equilibrium. -/
theorem C97_get_spe {net : Net} (hN : net.Solvable) {pick : Pick} {stpick : List Nat → Nat}
    {enumScc : Graph → List (List Node)} {tpick : List Node → Nat} {ord setOrd enumSet : List Node → List Node} {agentOrd : List Agent → List Agent}
    (hord : ∀ l, (ord l).Perm l) (hset : ∀ l, (setOrd l).Perm l) (hen : ∀ l, (enumSet l).Perm l) (hao : ∀ l, (agentOrd l).Perm l)
    {run : Efg → Solver → Py (List Behavior)} {conv : Behavior → Behavior} (hrun : SoundSolvers run conv) (hfind : FindsPure run)
    {override : Option String} (hov : Standard override)
    (hscc : ∀ rg : Graph, rg.nodes.Perm net.m.decisions → (∀ a b, rg.Edge a b ↔ net.m.Linked a b) → IsSccs rg.nodes rg.Edge (enumScc rg))
    (hone : ∀ group, net.m.IsGroup group → ∃ a, ∀ d ∈ group, net.m.role d = .decision a) {spes : List (List Cpd)}
    (h : getSpe pick stpick enumScc (fun n group => getNeInSg pick tpick ord setOrd agentOrd run conv override n (enumSet group)) net = .ok spes) :
    ∃ p ∈ spes, (p.map (·.var)).Perm net.m.decisions ∧ ∃ net', net.addPolicy p = (net', .ok ()) ∧ net'.Usable ∧ net'.SubgamePerfect := by
  have hne : spes ≠ [] := by
    have hU := hN.usable
    obtain ⟨macid, c1, c2, c3, c4, _, _⟩ := hU.copy
    have hdec : ∀ d, d ∈ macid.m.decisions ↔ d ∈ net.m.decisions := fun d => by
      rw [Net.decisions_role, Net.decisions_role, c4]
    have hrr : ∀ d v, macid.m.RReach d v ↔ net.m.RReach d v := Macid.rreach_congr c4 (fun v => by
      rw [show macid.m.g.nodes = net.m.g.nodes from c3.nodes]) c3.edges
    obtain ⟨hM, groups, hfl, hflN, hgr, hpw, hloop⟩ := hN.spe_frame c1 hscc
    rw [hloop] at h
    refine speLoop_nonempty (macid := macid) hflN (fun g hg p n done hb hnU hnO hnp found hf => ?_) groups [] rfl c2 (.rfl' _ _) (fun p hp => by
      rw [List.mem_singleton.1 hp]; exact .nil) (by simp) h
    have hnS : n.Solvable := hM.only hnU hnO (fun d hd c hc => by
      obtain ⟨c', hc', rfl⟩ := List.mem_map.1 hd
      rw [hnp c' hc'] at hc
      cases hc
      exact hb.kind c hc')
    have hgn : n.m.IsGroup (enumSet g) := by rw [hnO.m]; exact (hgr g hg).perm (hen g)
    refine ⟨?_, fun q hq => ⟨(hnS.policy hord hset hao hrun hgn hf hq).only hnO.symm, getNeInSg_kind hf q hq, ?_⟩⟩
    · obtain ⟨a, ha⟩ := hone g ((hgr g hg).congr hdec hrr)
      have hrole : ∀ d ∈ enumSet g, n.m.role d = .decision a := fun d hd => by
        rw [hnO.m, c4]
        exact ha d ((hen g).mem_iff.1 hd)
      refine C97_one_owner hnU hnS.names hord hset hao hfind hov hgn.nodup hrole (fun v hv _ _ => hnS.own v hv) (fun d hd => ?_) hnS.leaf
        (hnS.subgames hset hgn) hf
      obtain ⟨a', u, q1, q2, q3⟩ := hnS.goal d (hgn.decisions d hd)
      rw [hrole d hd] at q1
      cases q1
      exact ⟨u, q2, q3⟩
    · rw [getNeInSg_vars hf q hq]
      exact hen g
  obtain ⟨p, hp⟩ := List.exists_mem_of_ne_nil _ hne
  exact ⟨p, hp, C82_get_spe hN hord hset hen hao hrun hscc h p hp⟩

namespace ExG

open Classical in
/-- a solver that knows the games of `stages` and otherwise finds one pure equilibrium if there is any -/
noncomputable def finder : Efg → Solver → Py (List Behavior) := fun t s =>
  match stages t s with
  | .ok (b :: bs) => .ok (b :: bs)
  | _ => if h : ∃ b, IsBehavior t b ∧ Sharp t b ∧ IsNash t b then .ok [h.choose] else .ok []

theorem finder_sound : SoundSolvers finder id := by
  intro t s bs h b hb b' hb'
  unfold finder at h
  split at h
  · rename_i hs
    simp only [Except.ok.injEq] at h
    subst h
    exact stages_sound t s _ hs b hb b' hb'
  · simp only [id, ite_self] at hb'
    subst hb'
    split at h
    · rename_i hx
      simp only [Except.ok.injEq] at h
      subst h
      rw [List.mem_singleton] at hb
      subst hb
      exact ⟨hx.choose_spec.1, hx.choose_spec.2.2⟩
    · simp only [Except.ok.injEq] at h
      subst h
      simp at hb

theorem finder_finds : FindsPure finder := by
  intro t s bs _ h hx
  unfold finder at h
  split at h
  · simp only [Except.ok.injEq] at h
    subst h
    simp
  · rw [dif_pos hx] at h
    simp only [Except.ok.injEq] at h
    subst h
    simp

end ExG

/-- The hypotheses are met: each of the two players decides alone, and the search returns. -/
theorem C97_example : ExG.net.Solvable ∧ SoundSolvers ExG.finder id ∧ FindsPure ExG.finder ∧
    (∀ group, ExG.net.m.IsGroup group → ∃ a, ∀ d ∈ group, ExG.net.m.role d = .decision a) ∧
    (match getSpe (fun _ => 0) (fun _ => 0) ExG.sccs
      (fun n group => getNeInSg (fun _ => 0) (fun _ => 0) id id id ExG.finder id none n (id group)) ExG.net with
      | .ok spes => spes.map (fun p => p.map (fun c => (c.var, c.table)))
      | .error _ => []) = [[("D2", [[0, 1], [1, 0]]), ("D1", [[0, 1]])]] := by
  refine ⟨ExG.solvable, ExG.finder_sound, ExG.finder_finds, fun group hg => ?_, by decide +kernel⟩
  have hU := ExG.usable.1
  obtain ⟨rg, r1, r2, _, r4⟩ := relevanceGraph_spec hU.roles (mecFree_of_names ExG.names) (fun _ => 0)
    (show ExG.net.m.decisions.Nodup from hU.roles.dec.nodeKeys) (fun d hd => playable_of hU hd)
  have hrg : relevanceGraph (fun _ => 0) ExG.net.m ExG.net.m.decisions = .ok ⟨["D1", "D2"], [("D1", "D2")]⟩ := by decide +kernel
  rw [hrg] at r1
  cases r1
  have hE : ∀ a b, ExG.net.m.Linked a b → a = "D1" ∧ b = "D2" := by
    intro a b hab
    have := (r4 a b).2 hab
    simpa [Graph.Edge] using this
  have hr : ∀ x y, ReflTransGen ExG.net.m.Linked x y → x = y ∨ (x = "D1" ∧ y = "D2") := by
    intro x y h
    induction h with
    | refl => exact Or.inl rfl
    | tail _ h2 ih =>
      obtain ⟨rfl, rfl⟩ := hE _ _ h2
      rcases ih with rfl | ⟨_, h⟩
      · exact Or.inr ⟨rfl, rfl⟩
      · exact absurd h (by decide)
  obtain ⟨x, hx⟩ := List.exists_mem_of_ne_nil _ hg.nonempty
  obtain ⟨a, ha⟩ := decisions_role.1 (hg.decisions x hx)
  refine ⟨a, fun d hd => ?_⟩
  obtain ⟨q1, q2⟩ := (hg.classes x hx d (hg.decisions d hd)).1 hd
  rcases hr _ _ q1 with rfl | ⟨rfl, rfl⟩
  · exact ha
  · rcases hr _ _ q2 with h | ⟨h, _⟩ <;> simp at h

end Verif

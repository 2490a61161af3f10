import Verif.Spec.Patterns
import Verif.Lemmas.Incentive
import Verif.Lemmas.Relevance
import Verif.Props.Paths
import Verif.Lemmas.Roles

/-!
# C60-C62: reasoning patterns
-/

namespace Verif

open Graph Relation Macid

/-! ### loops that may return -/

theorem firstM_some {α β : Type} {f : α → Py (Option β)} {b : β} : ∀ {xs : List α}, firstM f xs = .ok (some b) → ∃ x ∈ xs, f x = .ok (some b)
  | [], h => by simp [firstM] at h
  | x :: xs, h => by
    unfold firstM at h
    cases hf : f x with
    | error e => rw [hf] at h; simp at h
    | ok r =>
      rw [hf] at h
      cases r with
      | some c => exact ⟨x, by simp, by rw [hf]; exact h⟩
      | none =>
        obtain ⟨y, hy, h'⟩ := firstM_some h
        exact ⟨y, by simp [hy], h'⟩

theorem firstM_none {α β : Type} {f : α → Py (Option β)} : ∀ {xs : List α}, firstM f xs = .ok none → ∀ x ∈ xs, f x = .ok none
  | [], _ => by simp
  | x :: xs, h => by
    unfold firstM at h
    cases hf : f x with
    | error e => rw [hf] at h; simp at h
    | ok r =>
      rw [hf] at h
      cases r with
      | some c => simp at h
      | none =>
        intro y hy
        rcases List.mem_cons.1 hy with rfl | hy
        · exact hf
        · exact firstM_none h y hy

theorem firstM_error {α β : Type} {f : α → Py (Option β)} {e : Err} : ∀ {xs : List α}, firstM f xs = .error e → ∃ x ∈ xs, f x = .error e
  | [], h => by simp [firstM] at h
  | x :: xs, h => by
    unfold firstM at h
    cases hf : f x with
    | error e' => rw [hf] at h; exact ⟨x, by simp, by rw [hf]; exact h⟩
    | ok r =>
      rw [hf] at h
      cases r with
      | some c => simp at h
      | none =>
        obtain ⟨y, hy, h'⟩ := firstM_error h
        exact ⟨y, by simp [hy], h'⟩

namespace Macid

variable {m : Macid}

theorem dec_role {d : Node} : d ∈ m.decisions ↔ ∃ a, m.role d = .decision a := by
  constructor
  · intro h
    obtain ⟨a, ha⟩ := Dict.mem_keys.1 h
    exact ⟨a, role_decision.2 ha⟩
  · rintro ⟨a, ha⟩
    exact Dict.mem_keys.2 ⟨a, role_decision.1 ha⟩

theorem effective_iff {E p : List Node} : pathIsEffective m p E = true ↔ m.EffectivePath E p := by
  unfold pathIsEffective EffectivePath
  simp only [List.all_eq_true, decide_eq_true_eq, dec_role]
  constructor
  · intro h v hv a ha
    exact (h v hv).resolve_left (fun q => q ⟨a, ha⟩)
  · intro h v hv
    by_cases q : ∃ a, m.role v = .decision a
    · obtain ⟨a, ha⟩ := q
      exact Or.inr (h v hv a ha)
    · exact Or.inl q

theorem decision_node (hc : m.Consistent) {d : Node} {a : Agent} (h : m.role d = .decision a) : d ∈ m.g.nodes :=
  hc.nodes d (Or.inl (dec_role.2 ⟨a, h⟩))

theorem utility_node (hc : m.Consistent) {u : Node} {a : Agent} (h : m.role u = .utility a) : u ∈ m.g.nodes :=
  hc.nodes u (Or.inr (Dict.mem_keys.2 ⟨a, (role_utility hc).1 h⟩))

/-- the utilities of the owner of a decision -/
theorem utilitiesOfOwner_ok (hc : m.Consistent) {d : Node} {a : Agent} (h : m.role d = .decision a) (ha : a ∈ m.agents) :
    ∃ us, utilitiesOfOwner m d = .ok us ∧ ∀ u, u ∈ us ↔ m.role u = .utility a := by
  obtain ⟨us, hus⟩ := Dict.mem_keys.1 (show a ∈ m.agentUtilities.keys from ha)
  refine ⟨us, ?_, fun u => ?_⟩
  · unfold utilitiesOfOwner
    rw [Dict.get_ok.2 (role_decision.1 h)]
    exact Dict.get_ok.2 hus
  · rw [role_utility hc, hc.util.iff]
    constructor
    · exact fun q => ⟨us, hus, q⟩
    · rintro ⟨l, h1, h2⟩
      rw [hus] at h1
      cases h1
      exact h2

theorem decisionFree_ok (hc : m.Consistent) {s t : Node} (hs : s ∈ m.g.nodes) (ht : t ∈ m.g.nodes) (hst : s ≠ t) :
    ∃ b, directedDecisionFreePath m.g m.decisions s t = .ok b ∧ (b = true ↔ m.DecisionFree s t) := by
  obtain ⟨b, h1, h2⟩ := (C04_directed_decision_free_path m.g hc.wf m.decisions s t).1 hs ht
  refine ⟨b, h1, h2.trans ?_⟩
  simp only [hst, false_or, dec_role, not_exists]
  rfl

theorem reachable_ok (hc : m.Consistent) {d : Node} {a : Agent} (hd : m.role d = .decision a) (E : List Node) :
    ∃ l, reachableDecisions m d E = .ok l ∧ ∀ b, b ∈ l ↔ b ≠ d ∧ (∃ ab, m.role b = .decision ab) ∧ b ∈ E ∧ m.DecisionFree d b := by
  classical
  have hn : m.decisions.Nodup := hc.dec.nodeKeys
  have key := filterM'_spec (f := fun e => if e ∈ E then directedDecisionFreePath m.g m.decisions d e else .ok false)
    (P := fun e => e ∈ E ∧ m.DecisionFree d e) (xs := m.decisions.erase d) (fun e he => by
      have he' := (List.Nodup.mem_erase_iff hn).1 he
      obtain ⟨ab, hab⟩ := dec_role.1 he'.2
      by_cases hE : e ∈ E
      · obtain ⟨b, h1, h2⟩ := decisionFree_ok hc (decision_node hc hd) (decision_node hc hab) (Ne.symm he'.1)
        exact ⟨b, by simp only [if_pos hE]; exact h1, by simp [hE, h2]⟩
      · exact ⟨false, by simp only [if_neg hE], by simp [hE]⟩)
  refine ⟨_, key, fun b => ?_⟩
  simp only [List.mem_filter, List.Nodup.mem_erase_iff hn, dec_role, decide_eq_true_eq]
  tauto

theorem effDir_ok (hc : m.Consistent) {s t : Node} (hs : s ∈ m.g.nodes) (ht : t ∈ m.g.nodes) (E : List Node) :
    ∃ b, effectiveDirPathExists m s t E = .ok b ∧ (b = true ↔ m.EffectiveDir E s t) := by
  obtain ⟨ps, h1, _, h3⟩ := (C01_find_all_dir_paths m.g hc.wf s t).1 hs ht
  refine ⟨_, by unfold effectiveDirPathExists; rw [h1], ?_⟩
  simp only [List.any_eq_true, effective_iff, h3]
  rfl

theorem avoiding_ok (hc : m.Consistent) {s t : Node} (hs : s ∈ m.g.nodes) (ht : t ∈ m.g.nodes) (E y : List Node) :
    ∃ v, directedEffectivePathNotThrough m s t E y = .ok v ∧
      (v = true ↔ ∃ p, m.g.IsDirPath s t p ∧ (∀ b ∈ y, b ∉ p) ∧ m.EffectivePath E p) := by
  obtain ⟨ps, h1, _, h3⟩ := (C01_find_all_dir_paths m.g hc.wf s t).1 hs ht
  refine ⟨_, by unfold directedEffectivePathNotThrough; rw [h1], ?_⟩
  simp only [List.any_eq_true, Bool.and_eq_true, effective_iff, h3, List.all_eq_true, decide_eq_true_eq]

theorem notThrough_ok (hc : m.Consistent) {s t : Node} (hs : s ∈ m.g.nodes) (ht : t ∈ m.g.nodes) (E : List Node) (b : Node) :
    ∃ v, directedEffectivePathNotThrough m s t E [b] = .ok v ∧ (v = true ↔ ∃ p, m.g.IsDirPath s t p ∧ b ∉ p ∧ m.EffectivePath E p) := by
  obtain ⟨v, h1, h2⟩ := avoiding_ok hc hs ht E [b]
  exact ⟨v, h1, by rw [h2]; simp⟩

theorem isCond_condNodes (hc : m.Consistent) (b d : Node) : m.IsCond b d (condNodes m.g b d) := by
  intro z
  unfold condNodes
  simp only [List.mem_cons, List.mem_filter, Graph.mem_parents, decide_eq_true_eq, mem_descendants hc.wf]

theorem condNodes_sub (hc : m.Consistent) {b : Node} (hb : b ∈ m.g.nodes) (d : Node) : ∀ z ∈ condNodes m.g b d, z ∈ m.g.nodes := by
  intro z hz
  rcases (isCond_condNodes hc b d z).1 hz with rfl | h
  · exact hb
  · exact (hc.wf.edgeNodes z b h.1).1

theorem IsCond.active {b d : Node} {W W' p : List Node} (h : m.IsCond b d W) (h' : m.IsCond b d W') (ha : m.g.Active W p) : m.g.Active W' p :=
  active_congr (fun z => (h z).trans (h' z).symm) ha

end Macid

/-! ### C60 -/

/-- **C60** `direct_effect(D)` decides: there is a directed path without decisions in between from D to a utility of the owner of
D.  It raises KeyError for a node that is no decision, or whose owner has no entry in `agent_utilities`. -/
theorem C60_direct_effect {m : Macid} (hc : m.Consistent) (d : Node) :
    (m.Playable d → ∃ b, directEffect m d = .ok b ∧ (b = true ↔ m.DirectEffect d)) ∧
    (¬ m.Playable d → directEffect m d = .error .key) := by
  constructor
  · rintro ⟨a, hd, ha⟩
    obtain ⟨us, h1, h2⟩ := utilitiesOfOwner_ok hc hd ha
    obtain ⟨b, h3, h4⟩ := anyM_spec (f := fun u => directedDecisionFreePath m.g m.decisions d u) (P := fun u => m.DecisionFree d u) (xs := us)
      (fun u hu => decisionFree_ok hc (decision_node hc hd) (utility_node hc ((h2 u).1 hu)) (fun e => by
        have := (h2 u).1 hu
        rw [← e, hd] at this
        simp at this))
    refine ⟨b, by unfold directEffect; rw [h1]; exact h3, h4.trans ?_⟩
    constructor
    · rintro ⟨u, hu, h⟩
      exact ⟨a, u, hd, (h2 u).1 hu, h⟩
    · rintro ⟨a', u, ha', hu, h⟩
      rw [hd] at ha'
      cases ha'
      exact ⟨u, (h2 u).2 hu, h⟩
  · intro h
    unfold directEffect utilitiesOfOwner
    cases ha : m.decisionAgent.get? d with
    | none => simp [Dict.get, ha]
    | some a =>
      rw [Dict.get_ok.2 ha]
      cases hu : m.agentUtilities.get? a with
      | none => simp [Dict.get, hu]
      | some us => exact absurd ⟨a, role_decision.2 ha, Dict.mem_keys.2 ⟨us, hu⟩⟩ h

/-- the part that three of the functions share -/
theorem sway_any {m : Macid} (hc : m.Consistent) (hp : ∀ b ∈ m.decisions, m.Playable b) {d : Node} {a : Agent} (hd : m.role d = .decision a)
    {E us reach : List Node} (hus : ∀ u, u ∈ us ↔ m.role u = .utility a)
    (hreach : ∀ b, b ∈ reach ↔ b ≠ d ∧ (∃ ab, m.role b = .decision ab) ∧ b ∈ E ∧ m.DecisionFree d b)
    {f : Node → Node → Py Bool} {Q : Node → Node → Prop}
    (hf : ∀ b ab ub, m.role b = .decision ab → m.role ub = .utility ab → ∃ v, f b ub = .ok v ∧ (v = true ↔ Q b ub)) :
    ∃ v, anyM (fun b =>
          match utilitiesOfOwner m b with
          | .error e => .error e
          | .ok ubs => anyM (fun u =>
              match effectiveDirPathExists m b u E with
              | .error e => .error e
              | .ok false => .ok false
              | .ok true => anyM (f b) ubs) us) reach = .ok v ∧
      (v = true ↔ ∃ a b ab u ub, m.Sways E d a b ab u ∧ m.role ub = .utility ab ∧ Q b ub) := by
  obtain ⟨v, h1, h2⟩ := anyM_spec (f := fun b =>
          match utilitiesOfOwner m b with
          | .error e => .error e
          | .ok ubs => anyM (fun u =>
              match effectiveDirPathExists m b u E with
              | .error e => .error e
              | .ok false => .ok false
              | .ok true => anyM (f b) ubs) us)
    (P := fun b => ∃ ab u ub, m.role b = .decision ab ∧ m.role u = .utility a ∧ m.EffectiveDir E b u ∧ m.role ub = .utility ab ∧ Q b ub)
    (xs := reach) (fun b hb => by
      obtain ⟨_, ⟨ab, hab⟩, _, _⟩ := (hreach b).1 hb
      obtain ⟨ab', hab', hag⟩ := hp b (dec_role.2 ⟨ab, hab⟩)
      rw [hab] at hab'
      cases hab'
      obtain ⟨ubs, k1, k2⟩ := utilitiesOfOwner_ok hc hab hag
      simp only [k1]
      obtain ⟨w, j1, j2⟩ := anyM_spec (f := fun u =>
              match effectiveDirPathExists m b u E with
              | .error e => .error e
              | .ok false => .ok false
              | .ok true => anyM (f b) ubs)
        (P := fun u => m.EffectiveDir E b u ∧ ∃ ub, m.role ub = .utility ab ∧ Q b ub) (xs := us) (fun u hu => by
          obtain ⟨e, i1, i2⟩ := effDir_ok hc (decision_node hc hab) (utility_node hc ((hus u).1 hu)) E
          simp only [i1]
          cases e with
          | false =>
            refine ⟨false, rfl, ?_⟩
            have : ¬ m.EffectiveDir E b u := fun q => by simpa using i2.2 q
            simp [this]
          | true =>
            obtain ⟨w, q1, q2⟩ := anyM_spec (f := f b) (P := Q b) (xs := ubs) (fun ub hub => hf b ab ub hab ((k2 ub).1 hub))
            refine ⟨w, q1, q2.trans ?_⟩
            simp only [i2.1 rfl, true_and, k2])
      refine ⟨w, j1, j2.trans ?_⟩
      constructor
      · rintro ⟨u, hu, h1, ub, h2, h3⟩
        exact ⟨ab, u, ub, hab, (hus u).1 hu, h1, h2, h3⟩
      · rintro ⟨ab', u, ub, h1, h2, h3, h4, h5⟩
        rw [hab] at h1
        cases h1
        exact ⟨u, (hus u).2 h2, h3, ub, h4, h5⟩)
  refine ⟨v, h1, h2.trans ?_⟩
  constructor
  · rintro ⟨b, hb, ab, u, ub, q1, q2, q3, q4, q5⟩
    obtain ⟨p1, _, p2, p3⟩ := (hreach b).1 hb
    exact ⟨a, b, ab, u, ub, ⟨hd, p1, q1, p2, p3, q2, q3⟩, q4, q5⟩
  · rintro ⟨a', b, ab, u, ub, hs, h4, h5⟩
    have := hs.owner
    rw [hd] at this
    cases this
    exact ⟨b, (hreach b).2 ⟨hs.other, ⟨ab, hs.ownerB⟩, hs.effective, hs.free⟩, ab, u, ub, hs.ownerB, hs.utility, hs.path, h4, h5⟩

/-- **C60** `manipulation(D, E)` decides the three documented conditions. -/
theorem C60_manipulation {m : Macid} (hc : m.Consistent) (hp : ∀ b ∈ m.decisions, m.Playable b) {d : Node} (hd : m.Playable d)
    {E : List Node} (hE : ∀ e ∈ E, e ∈ m.g.nodes) :
    ∃ b, manipulation m d E = .ok b ∧ (b = true ↔ m.Manipulates E d) := by
  obtain ⟨a, hda, ha⟩ := hd
  obtain ⟨us, h1, h2⟩ := utilitiesOfOwner_ok hc hda ha
  obtain ⟨reach, h3, h4⟩ := reachable_ok hc hda E
  obtain ⟨v, h5, h6⟩ := sway_any hc hp hda h2 h4 (f := fun b ub => directedEffectivePathNotThrough m d ub E [b])
    (Q := fun b ub => ∃ p, m.g.IsDirPath d ub p ∧ b ∉ p ∧ m.EffectivePath E p)
    (fun b ab ub _ hub => notThrough_ok hc (decision_node hc hda) (utility_node hc hub) E b)
  refine ⟨v, ?_, h6⟩
  unfold manipulation
  rw [check_ok hE, h1, h3]
  exact h5

/-- **C60** an effective set with an unknown node: KeyError -/
theorem C60_unknown_effective (ord : SetOrder) (m : Macid) (d : Node) {E : List Node} (hE : ¬ ∀ e ∈ E, e ∈ m.g.nodes) :
    manipulation m d E = .error .key ∧ signaling ord m d E = .error .key ∧ revealingOrDenying ord m d E = .error .key := by
  unfold manipulation signaling revealingOrDenying
  rw [check_err hE]
  exact ⟨rfl, rfl, rfl⟩

/-! ### C61 -/

/-- **C61** `revealing_or_denying(D, E)` decides its documented conditions except that it does not require the front-door path to
be effective. -/
theorem C61_revealing_or_denying {m : Macid} (hc : m.Consistent) (hp : ∀ b ∈ m.decisions, m.Playable b) {ord : SetOrder} (ho : ord.Valid)
    {d : Node} (hd : m.Playable d) {E : List Node} (hE : ∀ e ∈ E, e ∈ m.g.nodes) :
    ∃ b, revealingOrDenying ord m d E = .ok b ∧ (b = true ↔ m.RevealsLoosely E d) := by
  obtain ⟨a, hda, ha⟩ := hd
  obtain ⟨us, h1, h2⟩ := utilitiesOfOwner_ok hc hda ha
  obtain ⟨reach, h3, h4⟩ := reachable_ok hc hda E
  have hdn := decision_node hc hda
  obtain ⟨v, h5, h6⟩ := sway_any hc hp hda h2 h4 (f := fun b ub => isActiveIndirectFrontdoorTrail ord m.g d ub (condNodes m.g b d))
    (Q := fun b ub => ∃ W p, m.IsCond b d W ∧ m.Frontdoor d ub W p)
    (fun b ab ub hb hub => by
      obtain ⟨v, k1, k2⟩ := (C12_is_active_indirect_frontdoor_trail m.g hc.wf ord ho d ub (condNodes m.g b d)).1 (by
        intro x hx
        simp only [List.mem_append, List.mem_cons, List.not_mem_nil, or_false] at hx
        rcases hx with hx | rfl | rfl
        · exact condNodes_sub hc (decision_node hc hb) d x hx
        · exact hdn
        · exact utility_node hc hub) (fun e => by rw [← e, hda] at hub; simp at hub)
      refine ⟨v, k1, k2.trans ?_⟩
      constructor
      · rintro ⟨n, r, q1, q2, q3, l, x, c, y, r', q4, q5, q6⟩
        exact ⟨_, d :: n :: r, isCond_condNodes hc b d, q1, ⟨n, r, rfl, q2⟩, q3, l, x, c, y, r', q4, q5, q6⟩
      · rintro ⟨W, p, hW, q1, ⟨n, r, rfl, q2⟩, q3, l, x, c, y, r', q4, q5, q6⟩
        exact ⟨n, r, q1, q2, hW.active (isCond_condNodes hc b d) q3, l, x, c, y, r', q4, q5, q6⟩)
  refine ⟨v, ?_, h6⟩
  unfold revealingOrDenying
  rw [check_ok hE, h1, h3]
  simp only
  rw [if_neg (by simpa using hdn)]
  exact h5

/-- **C61** hence the documented conditions are sufficient for True -/
theorem C61_revealing_if_documented {m : Macid} (hc : m.Consistent) (hp : ∀ b ∈ m.decisions, m.Playable b) {ord : SetOrder} (ho : ord.Valid)
    {d : Node} {E : List Node} (hE : ∀ e ∈ E, e ∈ m.g.nodes) (h : m.Reveals E d) : revealingOrDenying ord m d E = .ok true := by
  obtain ⟨a, b, ab, u, ub, hs, hub, W, p, hW, hf, _⟩ := h
  obtain ⟨v, h1, h2⟩ := C61_revealing_or_denying hc hp ho (hp d (dec_role.2 ⟨a, hs.owner⟩)) hE
  rw [h1, h2.2 ⟨a, b, ab, u, ub, hs, hub, W, p, hW, hf⟩]

/-! the key node -/

theorem keyNodeLoop_spec {m : Macid} (hw : m.g.WF) {p : List Node} (hp : p ⊆ m.g.nodes) (hch : p.IsChain m.g.Adj) (hn : p.Nodup) {z : Node} :
    ∀ (bs l : List Node) (a : Node), p = l ++ a :: (bs ++ [z]) →
      (∀ l' x' c' y' r', p = l' ++ x' :: c' :: y' :: r' → m.g.Edge c' x' → m.g.Edge c' y' → l.length ≤ l'.length) →
      (∃ c, keyNodeLoop m.g p bs = .ok c ∧ m.IsKeyNode p c) ∨
      (keyNodeLoop m.g p bs = .error .value ∧ ∀ l' x' c' y' r', p = l' ++ x' :: c' :: y' :: r' → m.g.Edge c' x' → ¬ m.g.Edge c' y')
  | [], l, a, he, hlow => by
    refine Or.inr ⟨rfl, fun l' x' c' y' r' he' h1 h2 => ?_⟩
    have h3 := hlow l' x' c' y' r' he' h1 h2
    have h4 := congrArg List.length he
    have h5 := congrArg List.length he'
    simp at h4 h5
    omega
  | b :: bs, l, a, he, hlow => by
    obtain ⟨c, r, hcr⟩ : ∃ c r, bs ++ [z] = c :: r := by
      cases bs with
      | nil => exact ⟨z, [], rfl⟩
      | cons c bs => exact ⟨c, bs ++ [z], rfl⟩
    have he2 : p = l ++ a :: b :: c :: r := by rw [he, List.cons_append, hcr]
    have hch' := hch
    rw [isChain_iff_split] at hch'
    have h1 := hch' l a b (c :: r) he2
    have h2 := hch' (l ++ [a]) b c r (by simp [he2])
    have hidx : p.idxOf b = l.length + 1 := by
      have hn' := hn
      rw [he2] at hn' ⊢
      exact idxOf_split hn'
    have hp' : ∀ x ∈ l ++ a :: b :: c :: r, x ∈ m.g.nodes := fun x hx => hp (by rw [he2]; exact hx)
    obtain ⟨⟨mo, hmo⟩, hiff⟩ := C05_get_motif_interior m.g hw l r a b c hp' h1 h2
    have hget : getMotif m.g p (p.idxOf b) = .ok mo := by rw [hidx, he2]; exact hmo
    unfold keyNodeLoop
    rw [hget]
    simp only
    by_cases hf : mo = .fork
    · rw [if_pos hf]
      subst hf
      have := (hiff .fork).1 hmo
      exact Or.inl ⟨b, rfl, l, a, c, r, he2, this.1, this.2, hlow⟩
    · rw [if_neg hf]
      refine keyNodeLoop_spec hw hp hch hn (z := z) bs (l ++ [a]) b (by rw [he]; simp) (fun l' x' c' y' r' he' h1' h2' => ?_)
      have h3 := hlow l' x' c' y' r' he' h1' h2'
      rcases Nat.lt_or_ge l.length l'.length with h | h
      · simp only [List.length_append, List.length_cons, List.length_nil]; omega
      · exfalso
        have hlen : l.length = l'.length := by omega
        rw [he2] at he'
        obtain ⟨e1, e2⟩ := List.append_inj he' hlen
        simp only [List.cons.injEq] at e2
        obtain ⟨rfl, rfl, rfl, _⟩ := e2
        have := (hiff .fork).2 ⟨h1', h2'⟩
        rw [hmo] at this
        cases this
        exact hf rfl

theorem getKeyNode_spec {m : Macid} (hw : m.g.WF) {p : List Node} (hp : p ⊆ m.g.nodes) (hch : p.IsChain m.g.Adj) (hn : p.Nodup)
    (hlen : 2 ≤ p.length) :
    (∃ c, getKeyNode m.g p = .ok c ∧ m.IsKeyNode p c) ∨
      (getKeyNode m.g p = .error .value ∧ ∀ l' x' c' y' r', p = l' ++ x' :: c' :: y' :: r' → m.g.Edge c' x' → ¬ m.g.Edge c' y') := by
  obtain ⟨a, q, rfl⟩ : ∃ a q, p = a :: q := by
    cases p with
    | nil => simp at hlen
    | cons a q => exact ⟨a, q, rfl⟩
  obtain ⟨bs, z, rfl⟩ : ∃ bs z, q = bs ++ [z] := by
    rcases List.eq_nil_or_concat q with rfl | ⟨bs, z, rfl⟩
    · simp at hlen
    · exact ⟨bs, z, by simp⟩
  unfold getKeyNode
  have : (a :: (bs ++ [z])).tail.dropLast = bs := by simp
  rw [this]
  exact keyNodeLoop_spec hw hp hch hn bs [] a rfl (fun l' _ _ _ _ _ _ _ => by simp)

/-- a path that begins against an edge and has no fork leads to an ancestor -/
theorem ancestor_of_no_fork {g : Graph} : ∀ (r : List Node) (d n t : Node), (d :: n :: r).IsChain g.Adj → (d :: n :: r).getLast? = some t →
    g.Edge n d → (∀ l' x' c' y' r', d :: n :: r = l' ++ x' :: c' :: y' :: r' → g.Edge c' x' → ¬ g.Edge c' y') → g.Desc t d
  | [], d, n, t, _, ht, he, _ => by
    simp at ht
    subst ht
    exact .single he
  | c :: r, d, n, t, hc, ht, he, hno => by
    simp only [List.isChain_cons_cons] at hc
    have hcn : g.Edge c n := hc.2.1.resolve_left (hno [] d n c r rfl he)
    have := ancestor_of_no_fork r n c t (by simp only [List.isChain_cons_cons]; exact hc.2) (by
      rw [List.getLast?_cons_cons] at ht; exact ht) hcn (fun l' x' c' y' r' e => hno (d :: l') x' c' y' r' (by rw [e]; rfl))
    exact .tail this he

namespace Macid

variable {m : Macid}

/-- the three possible outcomes of the search for a back-door path -/
theorem backdoor_ok (hc : m.Consistent) {ord : SetOrder} (ho : ord.Valid) {d ub : Node} (hd : d ∈ m.g.nodes) (hu : ub ∈ m.g.nodes) (hne : d ≠ ub)
    (E : List Node) {W : List Node} (hW : ∀ z ∈ W, z ∈ m.g.nodes) :
    (effectiveBackdoorPath ord m d ub E W = .ok none ∧ ∀ p, ¬ m.Backdoor E d ub W p) ∨
    ∃ p, effectiveBackdoorPath ord m d ub E W = .ok (some p) ∧ m.Backdoor E d ub W p := by
  obtain ⟨ps, h1, _, h3⟩ := (C02_find_all_undir_paths m.g hc.wf ord ho d ub).1 hd hu
  have step : ∀ p ∈ ps, ∃ n r, p = d :: n :: r ∧ ∃ act, isActivePath m.g p W = .ok act ∧ (act = true ↔ m.g.Active W p) := by
    intro p hp
    have hpath := (h3 p).1 hp
    obtain ⟨act, k1, k2⟩ := (C06_is_active_path m.g hc.wf d ub p W hd hpath).1 hW
    match p, hpath with
    | [], hpath => simp [IsUndirPath] at hpath
    | [x], hpath =>
      obtain ⟨q1, q2, _⟩ := hpath
      simp at q1 q2
      exact absurd (q1.symm.trans q2) hne
    | x :: n :: r, hpath =>
      obtain ⟨q1, _⟩ := hpath
      simp at q1
      subst q1
      exact ⟨n, r, rfl, act, k1, k2⟩
  have good : ∀ n r act, isActivePath m.g (d :: n :: r) W = .ok act → (act = true ↔ m.g.Active W (d :: n :: r)) → d :: n :: r ∈ ps →
      ((decide (n ∈ m.g.parents d) && act && pathIsEffective m (d :: n :: r) E) = true ↔ m.Backdoor E d ub W (d :: n :: r)) := by
    intro n r act _ k2 hp
    simp only [Bool.and_eq_true, decide_eq_true_eq, Graph.mem_parents, k2, effective_iff]
    constructor
    · rintro ⟨⟨q1, q2⟩, q3⟩
      exact ⟨(h3 _).1 hp, ⟨n, r, rfl, q1⟩, q2, q3⟩
    · rintro ⟨_, ⟨n', r', e, q1⟩, q2, q3⟩
      simp only [List.cons.injEq, true_and] at e
      rw [e.1]
      rw [e.1, e.2] at q2 q3
      rw [e.2]
      exact ⟨⟨q1, q2⟩, q3⟩
  unfold effectiveBackdoorPath
  rw [h1]
  simp only
  generalize hq : firstM _ ps = q
  cases q with
  | error e =>
    obtain ⟨p, hp, h⟩ := firstM_error hq
    obtain ⟨n, r, rfl, act, k1, k2⟩ := step p hp
    simp only [k1] at h
    simp at h
  | ok o =>
    cases o with
    | none =>
      refine Or.inl ⟨rfl, fun p hb => ?_⟩
      have hp := (h3 p).2 hb.path
      have := firstM_none hq p hp
      obtain ⟨n, r, rfl, act, k1, k2⟩ := step p hp
      simp only [k1] at this
      rw [if_pos ((good n r act k1 k2 hp).2 hb)] at this
      simp at this
    | some p =>
      obtain ⟨p', hp, h⟩ := firstM_some hq
      obtain ⟨n, r, rfl, act, k1, k2⟩ := step p' hp
      simp only [k1] at h
      split at h
      · rename_i hcond
        simp only [Except.ok.injEq, Option.some.injEq] at h
        subst h
        exact Or.inr ⟨_, rfl, (good n r act k1 k2 hp).1 hcond⟩
      · simp at h

theorem undir_ok (hc : m.Consistent) {ord : SetOrder} (ho : ord.Valid) {c u : Node} (hcn : c ∈ m.g.nodes) (hu : u ∈ m.g.nodes)
    (E : List Node) {W : List Node} (hW : ∀ z ∈ W, z ∈ m.g.nodes) :
    (effectiveUndirPath ord m c u E W = .ok none ∧ ∀ q, m.g.IsUndirPath c u q → m.g.Active W q → ¬ m.EffectivePath E q) ∨
    ∃ q, effectiveUndirPath ord m c u E W = .ok (some q) ∧ m.g.IsUndirPath c u q ∧ m.g.Active W q ∧ m.EffectivePath E q := by
  obtain ⟨ps, h1, _, h3⟩ := (C02_find_all_undir_paths m.g hc.wf ord ho c u).1 hcn hu
  have step : ∀ p ∈ ps, ∃ act, isActivePath m.g p W = .ok act ∧ (act = true ↔ m.g.Active W p) := fun p hp =>
    (C06_is_active_path m.g hc.wf c u p W hcn ((h3 p).1 hp)).1 hW
  unfold effectiveUndirPath
  rw [h1]
  simp only
  generalize hq : firstM _ ps = q
  cases q with
  | error e =>
    obtain ⟨p, hp, h⟩ := firstM_error hq
    obtain ⟨act, k1, k2⟩ := step p hp
    simp only [k1] at h
    simp at h
  | ok o =>
    cases o with
    | none =>
      refine Or.inl ⟨rfl, fun p hp ha he => ?_⟩
      have hp' := (h3 p).2 hp
      have := firstM_none hq p hp'
      obtain ⟨act, k1, k2⟩ := step p hp'
      simp only [k1] at this
      rw [if_pos (by simp [k2.2 ha, effective_iff.2 he])] at this
      simp at this
    | some p =>
      obtain ⟨p', hp, h⟩ := firstM_some hq
      obtain ⟨act, k1, k2⟩ := step p' hp
      simp only [k1] at h
      split at h
      · rename_i hcond
        simp only [Except.ok.injEq, Option.some.injEq] at h
        subst h
        simp only [Bool.and_eq_true] at hcond
        exact Or.inr ⟨_, rfl, (h3 p').1 hp, k2.1 hcond.1, effective_iff.1 hcond.2⟩
      · simp at h

/-- the possible outcomes of the innermost body of `signaling` -/
theorem signalingStep_ok (hc : m.Consistent) {ord : SetOrder} (ho : ord.Valid) {d b u ub : Node} {a ab : Agent} (hd : m.role d = .decision a)
    (hb : m.role b = .decision ab) (hu : m.role u = .utility a) (hub : m.role ub = .utility ab) (E : List Node) :
    (signalingStep ord m d E b u ub = .ok none ∧ ((∀ W p, m.IsCond b d W → ¬ m.Backdoor E d ub W p) ∨
      ∃ W p c, m.IsCond b d W ∧ m.Backdoor E d ub W p ∧ m.IsKeyNode p c ∧ ¬ m.KeyReaches E d c u)) ∨
    (signalingStep ord m d E b u ub = .ok (some false) ∧ "" ∈ m.g.nodes) ∨
    (signalingStep ord m d E b u ub = .ok (some true) ∧
      ∃ W p c, m.IsCond b d W ∧ m.Backdoor E d ub W p ∧ m.IsKeyNode p c ∧ m.KeyReaches E d c u) ∨
    (signalingStep ord m d E b u ub = .error .value ∧ m.g.Desc ub d) := by
  have hdn := decision_node hc hd
  have hbn := decision_node hc hb
  have hubn := utility_node hc hub
  have hun := utility_node hc hu
  unfold signalingStep
  rcases backdoor_ok hc ho hdn hubn (fun e => by rw [← e, hd] at hub; simp at hub) E (condNodes_sub hc hbn d) with ⟨h1, h2⟩ | ⟨p, h1, h2⟩
  · rw [h1]
    exact Or.inl ⟨rfl, Or.inl (fun W p hW hB => h2 p ⟨hB.path, hB.into, hW.active (isCond_condNodes hc b d) hB.active, hB.effective⟩)⟩
  · rw [h1]
    simp only
    obtain ⟨n, r, hpe, hnd⟩ := h2.into
    have hps : p ⊆ m.g.nodes := undirPath_subset hc.wf hdn h2.path
    rcases getKeyNode_spec (m := m) hc.wf hps h2.path.2.2.1 h2.path.2.2.2 (by rw [hpe]; simp) with ⟨c, k1, k2⟩ | ⟨k1, k2⟩
    · rw [k1]
      simp only
      have hcn : c ∈ m.g.nodes := by
        obtain ⟨l, x, y, r', e, _⟩ := k2
        exact hps (by rw [e]; simp)
      by_cases hemp : c = ""
      · rw [if_pos hemp]
        exact Or.inr (Or.inl ⟨rfl, hemp ▸ hcn⟩)
      · rw [if_neg hemp]
        rcases undir_ok hc ho hcn hun E (condNodes_sub hc hdn c) with ⟨j1, j2⟩ | ⟨q, j1, j2, j3, j4⟩
        · rw [j1]
          refine Or.inl ⟨rfl, Or.inr ⟨_, p, c, isCond_condNodes hc b d, h2, k2, ?_⟩⟩
          rintro ⟨W, q, hW, q1, q2, q3⟩
          exact j2 q q1 (hW.active (isCond_condNodes hc d c) q2) q3
        · rw [j1]
          exact Or.inr (Or.inr (Or.inl ⟨rfl, _, p, c, isCond_condNodes hc b d, h2, k2, _, q, isCond_condNodes hc d c, j2, j3, j4⟩))
    · rw [k1]
      refine Or.inr (Or.inr (Or.inr ⟨rfl, ?_⟩))
      have hp2 := h2.path
      rw [hpe] at k2 hp2
      exact ancestor_of_no_fork r d n ub hp2.2.2.1 hp2.2.1 hnd k2

end Macid

/-- **C61** `signaling(D, E)`: True is backed by a decision, utilities and paths that meet the four documented conditions.  False
(no node being called "") means that for every choice of a decision and of utilities that meets the first two conditions there is
no effective unblocked back-door path, or one whose key node fails the fourth.  An exception can only be ValueError, and then
some utility of an agent with an effective decision is an ancestor of D. -/
theorem C61_signaling {m : Macid} (hc : m.Consistent) (hp : ∀ b ∈ m.decisions, m.Playable b) {ord : SetOrder} (ho : ord.Valid)
    {d : Node} (hd : m.Playable d) {E : List Node} (hE : ∀ e ∈ E, e ∈ m.g.nodes) :
    (signaling ord m d E = .ok true → m.Signals E d) ∧
    (signaling ord m d E = .ok false → "" ∉ m.g.nodes → ∀ a b ab u ub, m.Sways E d a b ab u → m.role ub = .utility ab →
      (∀ W p, m.IsCond b d W → ¬ m.Backdoor E d ub W p) ∨
      ∃ W p c, m.IsCond b d W ∧ m.Backdoor E d ub W p ∧ m.IsKeyNode p c ∧ ¬ m.KeyReaches E d c u) ∧
    (∀ e, signaling ord m d E = .error e → e = .value ∧ ∃ a b ab u ub, m.Sways E d a b ab u ∧ m.role ub = .utility ab ∧ m.g.Desc ub d) := by
  obtain ⟨a, hda, ha⟩ := hd
  obtain ⟨us, h1, h2⟩ := utilitiesOfOwner_ok hc hda ha
  obtain ⟨reach, h3, h4⟩ := reachable_ok hc hda E
  have hdn := decision_node hc hda
  have hsig : signaling ord m d E = match firstM (fun b =>
          match utilitiesOfOwner m b with
          | .error e => .error e
          | .ok ubs => firstM (fun u =>
              match effectiveDirPathExists m b u E with
              | .error e => .error e
              | .ok false => .ok none
              | .ok true => firstM (signalingStep ord m d E b u) ubs) us) reach with
        | .error e => .error e
        | .ok none => .ok false
        | .ok (some r) => .ok r := by
    unfold signaling
    rw [check_ok hE, h1, h3]
    simp only
    rw [if_neg (by simpa using hdn)]
    rfl
  -- what is known of a decision in the list
  have hb : ∀ b ∈ reach, ∃ ab ubs, m.role b = .decision ab ∧ utilitiesOfOwner m b = .ok ubs ∧ (∀ ub, ub ∈ ubs ↔ m.role ub = .utility ab) ∧
      b ≠ d ∧ b ∈ E ∧ m.DecisionFree d b := by
    intro b hb
    obtain ⟨q1, ⟨ab, hab⟩, q2, q3⟩ := (h4 b).1 hb
    obtain ⟨ab', hab', hag⟩ := hp b (dec_role.2 ⟨ab, hab⟩)
    rw [hab] at hab'
    cases hab'
    obtain ⟨ubs, k1, k2⟩ := utilitiesOfOwner_ok hc hab hag
    exact ⟨ab, ubs, hab, k1, k2, q1, q2, q3⟩
  have hsome : ∀ r, signaling ord m d E = .ok r → (r = true ∨ "" ∉ m.g.nodes) → r = true → m.Signals E d := by
    intro r hr _ hrt
    rw [hsig] at hr
    generalize hq : firstM _ reach = q at hr
    cases q with
    | error e => simp at hr
    | ok o =>
      cases o with
      | none => simp at hr; rw [hr] at hrt; simp at hrt
      | some r' =>
        simp only [Except.ok.injEq] at hr
        subst hr
        obtain ⟨b, hbm, hbf⟩ := firstM_some hq
        obtain ⟨ab, ubs, p1, p2, p3, p4, p5, p6⟩ := hb b hbm
        simp only [p2] at hbf
        obtain ⟨u, hum, huf⟩ := firstM_some hbf
        have hu := (h2 u).1 hum
        obtain ⟨e, i1, i2⟩ := effDir_ok hc (decision_node hc p1) (utility_node hc hu) E
        simp only [i1] at huf
        cases e with
        | false => simp at huf
        | true =>
          simp only at huf
          obtain ⟨ub, hubm, hubf⟩ := firstM_some huf
          have hub := (p3 ub).1 hubm
          subst hrt
          rcases signalingStep_ok hc ho hda p1 hu hub E with ⟨j, _⟩ | ⟨j, _⟩ | ⟨_, W, p, c, j1, j2, j3, j4⟩ | ⟨j, _⟩
          · rw [j] at hubf; simp at hubf
          · rw [j] at hubf; simp at hubf
          · exact ⟨a, b, ab, u, ub, ⟨hda, p4, p1, p5, p6, hu, i2.1 rfl⟩, hub, W, p, c, j1, j2, j3, j4⟩
          · rw [j] at hubf; simp at hubf
  refine ⟨fun h => hsome true h (Or.inl rfl) rfl, fun h hne => ?_, fun e h => ?_⟩
  · rw [hsig] at h
    generalize hq : firstM _ reach = q at h
    cases q with
    | error e => simp at h
    | ok o =>
      cases o with
      | some r' =>
        exfalso
        simp only [Except.ok.injEq] at h
        subst h
        obtain ⟨b, hbm, hbf⟩ := firstM_some hq
        obtain ⟨ab, ubs, p1, p2, p3, p4, p5, p6⟩ := hb b hbm
        simp only [p2] at hbf
        obtain ⟨u, hum, huf⟩ := firstM_some hbf
        have hu := (h2 u).1 hum
        obtain ⟨e, i1, i2⟩ := effDir_ok hc (decision_node hc p1) (utility_node hc hu) E
        simp only [i1] at huf
        cases e with
        | false => simp at huf
        | true =>
          simp only at huf
          obtain ⟨ub, hubm, hubf⟩ := firstM_some huf
          have hub := (p3 ub).1 hubm
          rcases signalingStep_ok hc ho hda p1 hu hub E with ⟨j, _⟩ | ⟨_, j⟩ | ⟨j, _⟩ | ⟨j, _⟩
          · rw [j] at hubf; simp at hubf
          · exact hne j
          · rw [j] at hubf; simp at hubf
          · rw [j] at hubf; simp at hubf
      | none =>
        intro a' b ab u ub hs hub
        have hs' := hs.owner
        rw [hda] at hs'
        cases hs'
        have hbm : b ∈ reach := (h4 b).2 ⟨hs.other, ⟨ab, hs.ownerB⟩, hs.effective, hs.free⟩
        obtain ⟨ab', ubs, p1, p2, p3, _⟩ := hb b hbm
        rw [hs.ownerB] at p1
        cases p1
        have hbf := firstM_none hq b hbm
        simp only [p2] at hbf
        have huf := firstM_none hbf u ((h2 u).2 hs.utility)
        obtain ⟨e, i1, i2⟩ := effDir_ok hc (decision_node hc hs.ownerB) (utility_node hc hs.utility) E
        simp only [i1] at huf
        rw [i2.2 hs.path] at huf
        simp only at huf
        have hubf := firstM_none huf ub ((p3 ub).2 hub)
        rcases signalingStep_ok hc ho hda hs.ownerB hs.utility hub E with ⟨_, j⟩ | ⟨j, _⟩ | ⟨j, _⟩ | ⟨j, _⟩
        · exact j
        · rw [j] at hubf; simp at hubf
        · rw [j] at hubf; simp at hubf
        · rw [j] at hubf; simp at hubf
  · rw [hsig] at h
    generalize hq : firstM _ reach = q at h
    cases q with
    | ok o => cases o <;> simp at h
    | error e' =>
      simp only [Except.error.injEq] at h
      subst h
      obtain ⟨b, hbm, hbf⟩ := firstM_error hq
      obtain ⟨ab, ubs, p1, p2, p3, p4, p5, p6⟩ := hb b hbm
      simp only [p2] at hbf
      obtain ⟨u, hum, huf⟩ := firstM_error hbf
      have hu := (h2 u).1 hum
      obtain ⟨e, i1, i2⟩ := effDir_ok hc (decision_node hc p1) (utility_node hc hu) E
      simp only [i1] at huf
      cases e with
      | false => simp at huf
      | true =>
        simp only at huf
        obtain ⟨ub, hubm, hubf⟩ := firstM_error huf
        have hub := (p3 ub).1 hubm
        rcases signalingStep_ok hc ho hda p1 hu hub E with ⟨j, _⟩ | ⟨j, _⟩ | ⟨j, _⟩ | ⟨j, j'⟩
        · rw [j] at hubf; simp at hubf
        · rw [j] at hubf; simp at hubf
        · rw [j] at hubf; simp at hubf
        · rw [j] at hubf
          simp only [Except.error.injEq] at hubf
          exact ⟨hubf.symm, a, b, ab, u, ub, ⟨hda, p4, p1, p5, p6, hu, i2.1 rfl⟩, hub, j'⟩

/-- **C61** where no utility is an ancestor of a decision, `signaling` returns a truth value -/
theorem C61_signaling_returns {m : Macid} (hc : m.Consistent) (hp : ∀ b ∈ m.decisions, m.Playable b) {ord : SetOrder} (ho : ord.Valid)
    {d : Node} (hd : m.Playable d) {E : List Node} (hE : ∀ e ∈ E, e ∈ m.g.nodes)
    (hanc : ∀ u a, m.role u = .utility a → ¬ m.g.Desc u d) : ∃ b, signaling ord m d E = .ok b := by
  obtain ⟨_, _, h⟩ := C61_signaling hc hp ho hd hE
  cases hs : signaling ord m d E with
  | ok b => exact ⟨b, rfl⟩
  | error e =>
    obtain ⟨_, a, b, ab, u, ub, _, h2, h3⟩ := h e hs
    exact absurd h3 (hanc ub ab h2)

/-! ### C62 -/

theorem orPy_ok {a : Py Bool} {b : Unit → Py Bool} {r : Bool} (h : orPy a b = .ok r) : (a = .ok true ∧ r = true) ∨ (a = .ok false ∧ b () = .ok r) := by
  unfold orPy at h
  split at h
  · simp at h
  · simp only [Except.ok.injEq] at h; exact Or.inl ⟨rfl, h.symm⟩
  · exact Or.inr ⟨rfl, h⟩

theorem refineLoop_spec (ord : SetOrder) {setOrd : List Node → List Node} (hso : ∀ l, (setOrd l).Perm l) (m : Macid) :
    ∀ (k : Nat) (E : List Node), E.length < k → ∀ r, refineLoop ord setOrd m k E = .ok r →
      ∃ E', r = some E' ∧ (∀ x ∈ E', x ∈ E) ∧ (∀ x ∈ E', motivated ord m E' x = .ok true) ∧ (E.Nodup → E'.Nodup)
  | 0, E, hk, _, _ => by omega
  | k + 1, E, hk, r, h => by
    unfold refineLoop at h
    cases hf : filterM' (motivated ord m E) (setOrd E) with
    | error e => rw [hf] at h; simp at h
    | ok new =>
      rw [hf] at h
      simp only at h
      obtain ⟨h1, _, h2'⟩ := filterM'_ok hf
      have h2 := fun x hx => ((h2' x).1 hx).2
      have hle := h1.length_le
      rw [(hso E).length_eq] at hle
      split at h
      · rename_i heq
        simp only [Except.ok.injEq] at h
        have : new = setOrd E := h1.eq_of_length (by rw [heq, (hso E).length_eq])
        exact ⟨E, h.symm, fun x hx => hx, fun x hx => h2 x (by rw [this]; exact (hso E).mem_iff.2 hx), id⟩
      · rename_i hne
        obtain ⟨E', q1, q2, q3, q4⟩ := refineLoop_spec ord hso m k new (by omega) r h
        exact ⟨E', q1, fun x hx => (hso E).mem_iff.1 (h1.subset (q2 x hx)), q3, fun hn => q4 (h1.nodup ((hso E).nodup_iff.2 hn))⟩

theorem refineLoop_mono (ord : SetOrder) {setOrd : List Node → List Node} (hso : ∀ l, (setOrd l).Perm l) (m : Macid) :
    ∀ (k k' : Nat) (E : List Node), E.length < k → E.length < k' → refineLoop ord setOrd m k E = refineLoop ord setOrd m k' E
  | 0, _, E, hk, _ => by omega
  | _ + 1, 0, E, _, hk => by omega
  | k + 1, k' + 1, E, hk, hk' => by
    unfold refineLoop
    cases hf : filterM' (motivated ord m E) (setOrd E) with
    | error e => rfl
    | ok new =>
      simp only
      have hle := (filterM'_ok hf).1.length_le
      rw [(hso E).length_eq] at hle
      split
      · rfl
      · exact refineLoop_mono ord hso m k k' new (by omega) (by omega)

/-- a decision with a direct effect survives every round -/
theorem refineLoop_keeps (ord : SetOrder) {setOrd : List Node → List Node} (hso : ∀ l, (setOrd l).Perm l) (m : Macid) {d : Node}
    (hd : directEffect m d = .ok true) : ∀ (k : Nat) (E E' : List Node), d ∈ E → refineLoop ord setOrd m k E = .ok (some E') → d ∈ E'
  | 0, E, E', _, h => by simp [refineLoop] at h
  | k + 1, E, E', hE, h => by
    unfold refineLoop at h
    cases hf : filterM' (motivated ord m E) (setOrd E) with
    | error e => rw [hf] at h; simp at h
    | ok new =>
      rw [hf] at h
      simp only at h
      split at h
      · simp only [Except.ok.injEq, Option.some.injEq] at h
        rw [← h]; exact hE
      · refine refineLoop_keeps ord hso m hd k new E' ?_ h
        rw [(filterM'_ok hf).2.2]
        exact ⟨(hso E).mem_iff.2 hE, by simp [motivated, orPy, hd]⟩

/-- what one decision of the result of the classification is listed for -/
structure Listed (ord : SetOrder) (m : Macid) (E : List Node) (M : Motivations) : Prop where
  dir : ∀ d ∈ M.dirEffect, directEffect m d = .ok true
  sig : ∀ d ∈ M.sig, directEffect m d = .ok false ∧ signaling ord m d E = .ok true
  man : ∀ d ∈ M.manip, directEffect m d = .ok false ∧ signaling ord m d E = .ok false ∧ manipulation m d E = .ok true
  rev : ∀ d ∈ M.revDen, directEffect m d = .ok false ∧ signaling ord m d E = .ok false ∧ manipulation m d E = .ok false ∧
    revealingOrDenying ord m d E = .ok true

theorem mem_snoc {α : Type} {x y : α} {l : List α} : x ∈ l ++ [y] ↔ x ∈ l ∨ x = y := by simp

theorem classifyLoop_spec (ord : SetOrder) (m : Macid) (E : List Node) : ∀ (ds : List Node) (acc M : Motivations),
    Listed ord m E acc → (∀ d ∈ ds, motivated ord m E d = .ok true) → classifyLoop ord m E acc ds = .ok M →
    Listed ord m E M ∧ (M.dirEffect ++ M.sig ++ M.manip ++ M.revDen).Perm (acc.dirEffect ++ acc.sig ++ acc.manip ++ acc.revDen ++ ds)
  | [], acc, M, hl, _, h => by
    simp only [classifyLoop, Except.ok.injEq] at h
    subst h
    exact ⟨hl, by simp⟩
  | d :: ds, acc, M, hl, hm, h => by
    unfold classifyLoop at h
    have hmd := hm d (by simp)
    have main : ∀ acc', Listed ord m E acc' → (acc'.dirEffect ++ acc'.sig ++ acc'.manip ++ acc'.revDen).Perm (acc.dirEffect ++ acc.sig ++ acc.manip ++ acc.revDen ++ [d]) →
        classifyLoop ord m E acc' ds = .ok M → Listed ord m E M ∧ (M.dirEffect ++ M.sig ++ M.manip ++ M.revDen).Perm (acc.dirEffect ++ acc.sig ++ acc.manip ++ acc.revDen ++ d :: ds) := by
      intro acc' h1 h2 h3
      obtain ⟨q1, q2⟩ := classifyLoop_spec ord m E ds acc' M h1 (fun x hx => hm x (by simp [hx])) h3
      refine ⟨q1, q2.trans ((h2.append_right ds).trans (by simp))⟩
    unfold classify at h
    cases h1 : directEffect m d with
    | error e => simp [h1] at h
    | ok b1 =>
      cases b1 with
      | true =>
        simp only [h1] at h
        refine main { acc with dirEffect := acc.dirEffect ++ [d] } ⟨fun x hx => ?_, hl.sig, hl.man, hl.rev⟩ ?_ h
        · rcases mem_snoc.1 hx with hx | rfl
          · exact hl.dir x hx
          · exact h1
        · rw [List.perm_iff_count]; intro x; simp only [List.count_append]; omega
      | false =>
        cases h2 : signaling ord m d E with
        | error e => simp [h1, h2] at h
        | ok b2 =>
          cases b2 with
          | true =>
            simp only [h1, h2] at h
            refine main { acc with sig := acc.sig ++ [d] } ⟨hl.dir, fun x hx => ?_, hl.man, hl.rev⟩ ?_ h
            · rcases mem_snoc.1 hx with hx | rfl
              · exact hl.sig x hx
              · exact ⟨h1, h2⟩
            · rw [List.perm_iff_count]; intro x; simp only [List.count_append]; omega
          | false =>
            cases h3 : manipulation m d E with
            | error e => simp [h1, h2, h3] at h
            | ok b3 =>
              cases b3 with
              | true =>
                simp only [h1, h2, h3] at h
                refine main { acc with manip := acc.manip ++ [d] } ⟨hl.dir, hl.sig, fun x hx => ?_, hl.rev⟩ ?_ h
                · rcases mem_snoc.1 hx with hx | rfl
                  · exact hl.man x hx
                  · exact ⟨h1, h2, h3⟩
                · rw [List.perm_iff_count]; intro x; simp only [List.count_append]; omega
              | false =>
                have h4 : revealingOrDenying ord m d E = .ok true := by
                  simpa [motivated, orPy, h1, h2, h3] using hmd
                simp only [h1, h2, h3, h4] at h
                refine main { acc with revDen := acc.revDen ++ [d] } ⟨hl.dir, hl.sig, hl.man, fun x hx => ?_⟩ ?_ h
                · rcases mem_snoc.1 hx with hx | rfl
                  · exact hl.rev x hx
                  · exact ⟨h1, h2, h3, h4⟩
                · rw [List.perm_iff_count]; intro x; simp only [List.count_append]; omega

/-- **C62** the loop of `get_reasoning_patterns` ends after at most one round more than there are decisions, whatever the order in
which sets are enumerated, and more rounds change nothing. -/
theorem C62_terminates (ord : SetOrder) {setOrd : List Node → List Node} (hso : ∀ l, (setOrd l).Perm l) (m : Macid) (k : Nat)
    (hk : m.decisions.length < k) :
    getReasoningPatterns k ord setOrd m ≠ .ok none ∧
    getReasoningPatterns k ord setOrd m = getReasoningPatterns (m.decisions.length + 1) ord setOrd m := by
  constructor
  · intro h
    unfold getReasoningPatterns at h
    cases hr : refineLoop ord setOrd m k m.decisions with
    | error e => rw [hr] at h; simp at h
    | ok r =>
      obtain ⟨E', rfl, _⟩ := refineLoop_spec ord hso m k m.decisions hk r hr
      rw [hr] at h
      simp only at h
      split at h <;> simp at h
  · unfold getReasoningPatterns
    rw [refineLoop_mono ord hso m k (m.decisions.length + 1) m.decisions hk (by omega)]

/-- **C62** the result: there is a set E of effective decisions, each with a pattern relative to E; the four lists together
are E, each decision once, listed under direct effect, signaling, manipulation, revealing/denying, whichever comes first of the
patterns that it has relative to E; every decision with a direct effect is listed. -/
theorem C62_result (ord : SetOrder) {setOrd : List Node → List Node} (hso : ∀ l, (setOrd l).Perm l) {m : Macid} (hc : m.Consistent) (k : Nat)
    (hk : m.decisions.length < k) {M : Motivations} (h : getReasoningPatterns k ord setOrd m = .ok (some M)) :
    ∃ E : List Node, E.Nodup ∧ (∀ d ∈ E, d ∈ m.decisions) ∧ (M.dirEffect ++ M.sig ++ M.manip ++ M.revDen).Perm E ∧
      (∀ d, d ∈ M.dirEffect ↔ d ∈ m.decisions ∧ directEffect m d = .ok true) ∧
      (∀ d, d ∈ M.sig ↔ d ∈ E ∧ directEffect m d = .ok false ∧ signaling ord m d E = .ok true) ∧
      (∀ d, d ∈ M.manip ↔ d ∈ E ∧ directEffect m d = .ok false ∧ signaling ord m d E = .ok false ∧ manipulation m d E = .ok true) ∧
      (∀ d, d ∈ M.revDen ↔ d ∈ E ∧ directEffect m d = .ok false ∧ signaling ord m d E = .ok false ∧ manipulation m d E = .ok false) ∧
      (∀ d ∈ M.revDen, revealingOrDenying ord m d E = .ok true) := by
  unfold getReasoningPatterns at h
  cases hr : refineLoop ord setOrd m k m.decisions with
  | error e => rw [hr] at h; simp at h
  | ok r =>
    obtain ⟨E, rfl, q2, q3, q4⟩ := refineLoop_spec ord hso m k m.decisions hk r hr
    rw [hr] at h
    simp only at h
    cases hcl : classifyLoop ord m E {} (setOrd E) with
    | error e => rw [hcl] at h; simp at h
    | ok M' =>
      rw [hcl] at h
      simp only [Except.ok.injEq, Option.some.injEq] at h
      subst h
      obtain ⟨hl, hperm⟩ := classifyLoop_spec ord m E (setOrd E) {} M' ⟨by simp, by simp, by simp, by simp⟩
        (fun d hd => q3 d ((hso E).mem_iff.1 hd)) hcl
      have hperm' : (M'.dirEffect ++ M'.sig ++ M'.manip ++ M'.revDen).Perm E := by
        refine hperm.trans ?_
        simpa using hso E
      have hmem : ∀ d, d ∈ E ↔ d ∈ M'.dirEffect ∨ d ∈ M'.sig ∨ d ∈ M'.manip ∨ d ∈ M'.revDen := fun d => by
        rw [← hperm'.mem_iff]; simp
      refine ⟨E, q4 hc.dec.nodeKeys, q2, hperm', fun d => ⟨fun hd => ⟨q2 d ((hmem d).2 (Or.inl hd)), hl.dir d hd⟩, fun ⟨hd, hd'⟩ => ?_⟩,
        fun d => ⟨fun hd => ⟨(hmem d).2 (Or.inr (Or.inl hd)), hl.sig d hd⟩, fun ⟨hd, hd'⟩ => ?_⟩,
        fun d => ⟨fun hd => ⟨(hmem d).2 (Or.inr (Or.inr (Or.inl hd))), hl.man d hd⟩, fun ⟨hd, hd'⟩ => ?_⟩,
        fun d => ⟨fun hd => ⟨(hmem d).2 (Or.inr (Or.inr (Or.inr hd))), (hl.rev d hd).1, (hl.rev d hd).2.1, (hl.rev d hd).2.2.1⟩, fun ⟨hd, hd'⟩ => ?_⟩,
        fun d hd => (hl.rev d hd).2.2.2⟩
      · rcases (hmem d).1 (refineLoop_keeps ord hso m hd' k _ _ hd hr) with q | q | q | q
        · exact q
        · have := (hl.sig d q).1; rw [hd'] at this; simp at this
        · have := (hl.man d q).1; rw [hd'] at this; simp at this
        · have := (hl.rev d q).1; rw [hd'] at this; simp at this
      · rcases (hmem d).1 hd with q | q | q | q
        · have := hl.dir d q; rw [hd'.1] at this; simp at this
        · exact q
        · have := (hl.man d q).2.1; rw [hd'.2] at this; simp at this
        · have := (hl.rev d q).2.1; rw [hd'.2] at this; simp at this
      · rcases (hmem d).1 hd with q | q | q | q
        · have := hl.dir d q; rw [hd'.1] at this; simp at this
        · have := (hl.sig d q).2; rw [hd'.2.1] at this; simp at this
        · exact q
        · have := (hl.rev d q).2.2.1; rw [hd'.2.2] at this; simp at this
      · rcases (hmem d).1 hd with q | q | q | q
        · have := hl.dir d q; rw [hd'.1] at this; simp at this
        · have := (hl.sig d q).2; rw [hd'.2.1] at this; simp at this
        · have := (hl.man d q).2.2; rw [hd'.2.2] at this; simp at this
        · exact q

/-- **C62** where every owner of a decision has an entry in `agent_utilities` and no utility is an ancestor of a decision, a result
is returned; without the latter only ValueError can be raised. -/
theorem C62_returns {m : Macid} (hc : m.Consistent) (hp : ∀ b ∈ m.decisions, m.Playable b) {ord : SetOrder} (ho : ord.Valid)
    {setOrd : List Node → List Node} (hso : ∀ l, (setOrd l).Perm l) (k : Nat) (hk : m.decisions.length < k) :
    (∀ e, getReasoningPatterns k ord setOrd m = .error e → e = .value) ∧
    ((∀ d ∈ m.decisions, ∀ u a, m.role u = .utility a → ¬ m.g.Desc u d) → ∃ M, getReasoningPatterns k ord setOrd m = .ok (some M)) := by
  have hE : ∀ E : List Node, (∀ x ∈ E, x ∈ m.decisions) → ∀ x ∈ E, x ∈ m.g.nodes := fun E h x hx => hc.nodes x (Or.inl (h x hx))
  -- every error comes from signaling
  have one : ∀ (E : List Node) (d : Node) (e : Err), (∀ x ∈ E, x ∈ m.decisions) → d ∈ m.decisions →
      motivated ord m E d = .error e → signaling ord m d E = .error e := by
    intro E d e hEd hd h
    obtain ⟨b1, h1, _⟩ := (C60_direct_effect hc d).1 (hp d hd)
    obtain ⟨b2, h2, _⟩ := C60_manipulation hc hp (hp d hd) (hE E hEd)
    obtain ⟨b3, h3, _⟩ := C61_revealing_or_denying hc hp ho (hp d hd) (hE E hEd)
    unfold motivated orPy at h
    rw [h1] at h
    cases b1
    · simp only [h2] at h
      cases b2
      · simp only [h3] at h
        cases h4 : signaling ord m d E with
        | error e' => rw [h4] at h; exact h
        | ok b =>
          rw [h4] at h
          cases b <;> simp at h
      · simp at h
    · simp at h
  have loop : ∀ (k : Nat) (E : List Node) (e : Err), (∀ x ∈ E, x ∈ m.decisions) → refineLoop ord setOrd m k E = .error e →
      ∃ E' d, (∀ x ∈ E', x ∈ m.decisions) ∧ d ∈ m.decisions ∧ signaling ord m d E' = .error e := by
    intro k
    induction k with
    | zero => intro E e _ h; simp [refineLoop] at h
    | succ k ih =>
      intro E e hEd h
      unfold refineLoop at h
      cases hf : filterM' (motivated ord m E) (setOrd E) with
      | error e' =>
        rw [hf] at h
        simp only [Except.error.injEq] at h
        subst h
        obtain ⟨d, hd, h'⟩ := filterM'_error hf
        have hd' := hEd d ((hso E).mem_iff.1 hd)
        exact ⟨E, d, hEd, hd', one E d e' hEd hd' h'⟩
      | ok new =>
        rw [hf] at h
        simp only at h
        split at h
        · simp at h
        · exact ih new e (fun x hx => hEd x ((hso E).mem_iff.1 ((filterM'_ok hf).1.subset hx))) h
  have cls : ∀ (E : List Node) (e : Err), (∀ x ∈ E, x ∈ m.decisions) → ∀ (ds : List Node) (acc : Motivations), (∀ x ∈ ds, x ∈ m.decisions) →
      classifyLoop ord m E acc ds = .error e → ∃ d, d ∈ m.decisions ∧ signaling ord m d E = .error e := by
    intro E e hEd ds
    induction ds with
    | nil => intro acc _ h; simp [classifyLoop] at h
    | cons d ds ih =>
      intro acc hds h
      unfold classifyLoop at h
      cases hcl : classify ord m E acc d with
      | ok acc' =>
        rw [hcl] at h
        exact ih acc' (fun x hx => hds x (by simp [hx])) h
      | error e' =>
        rw [hcl] at h
        simp only [Except.error.injEq] at h
        subst h
        have hd := hds d (by simp)
        refine ⟨d, hd, ?_⟩
        obtain ⟨b1, h1, _⟩ := (C60_direct_effect hc d).1 (hp d hd)
        obtain ⟨b2, h2, _⟩ := C60_manipulation hc hp (hp d hd) (hE E hEd)
        obtain ⟨b3, h3, _⟩ := C61_revealing_or_denying hc hp ho (hp d hd) (hE E hEd)
        unfold classify at hcl
        rw [h1] at hcl
        cases h4 : signaling ord m d E with
        | error e'' =>
          rw [h4] at hcl
          cases b1
          · simpa using hcl
          · simp at hcl
        | ok b =>
          rw [h4, h2, h3] at hcl
          cases b1 <;> cases b <;> cases b2 <;> cases b3 <;> simp at hcl
  have all : ∀ e, getReasoningPatterns k ord setOrd m = .error e → ∃ E d, (∀ x ∈ E, x ∈ m.decisions) ∧ d ∈ m.decisions ∧ signaling ord m d E = .error e := by
    intro e h
    unfold getReasoningPatterns at h
    cases hr : refineLoop ord setOrd m k m.decisions with
    | error e' =>
      rw [hr] at h
      simp only [Except.error.injEq] at h
      subst h
      exact loop k _ _ (fun _ hx => hx) hr
    | ok r =>
      obtain ⟨E, rfl, q2, _, _⟩ := refineLoop_spec ord hso m k m.decisions hk r hr
      rw [hr] at h
      simp only at h
      cases hcl : classifyLoop ord m E {} (setOrd E) with
      | ok M => rw [hcl] at h; simp at h
      | error e' =>
        rw [hcl] at h
        simp only [Except.error.injEq] at h
        subst h
        obtain ⟨d, hd, h'⟩ := cls E e' q2 (setOrd E) {} (fun x hx => q2 x ((hso E).mem_iff.1 hx)) hcl
        exact ⟨E, d, q2, hd, h'⟩
  constructor
  · intro e h
    obtain ⟨E, d, h1, h2, h3⟩ := all e h
    exact ((C61_signaling hc hp ho (hp d h2) (hE E h1)).2.2 e h3).1
  · intro hanc
    cases h : getReasoningPatterns k ord setOrd m with
    | error e =>
      obtain ⟨E, d, h1, h2, h3⟩ := all e h
      obtain ⟨b, hb⟩ := C61_signaling_returns hc hp ho (hp d h2) (hE E h1) (hanc d h2)
      rw [hb] at h3
      simp at h3
    | ok r =>
      cases r with
      | none => exact absurd h (C62_terminates ord hso m k hk).1
      | some M => exact ⟨M, rfl⟩

/-- **C62** the result in terms of the documented patterns -/
theorem C62_documented {m : Macid} (hc : m.Consistent) (hp : ∀ b ∈ m.decisions, m.Playable b) {ord : SetOrder} (ho : ord.Valid)
    {setOrd : List Node → List Node} (hso : ∀ l, (setOrd l).Perm l) (k : Nat) (hk : m.decisions.length < k) {M : Motivations}
    (h : getReasoningPatterns k ord setOrd m = .ok (some M)) :
    ∃ E : List Node, E.Nodup ∧ (∀ d ∈ E, d ∈ m.decisions) ∧ (M.dirEffect ++ M.sig ++ M.manip ++ M.revDen).Perm E ∧
      (∀ d, d ∈ M.dirEffect ↔ m.DirectEffect d) ∧
      (∀ d ∈ M.sig, m.Signals E d ∧ ¬ m.DirectEffect d) ∧
      (∀ d ∈ M.manip, m.Manipulates E d ∧ ¬ m.DirectEffect d) ∧
      (∀ d ∈ M.revDen, m.RevealsLoosely E d ∧ ¬ m.Manipulates E d ∧ ¬ m.DirectEffect d) := by
  obtain ⟨E, h1, h2, h3, h4, h5, h6, h7, h8⟩ := C62_result ord hso hc k hk h
  have hE : ∀ x ∈ E, x ∈ m.g.nodes := fun x hx => hc.nodes x (Or.inl (h2 x hx))
  have dir : ∀ d ∈ m.decisions, ∀ b, directEffect m d = .ok b → (b = true ↔ m.DirectEffect d) := by
    intro d hd b hb
    obtain ⟨b', q1, q2⟩ := (C60_direct_effect hc d).1 (hp d hd)
    rw [q1] at hb
    cases hb
    exact q2
  have man : ∀ d ∈ m.decisions, ∀ b, manipulation m d E = .ok b → (b = true ↔ m.Manipulates E d) := by
    intro d hd b hb
    obtain ⟨b', q1, q2⟩ := C60_manipulation hc hp (hp d hd) hE
    rw [q1] at hb
    cases hb
    exact q2
  refine ⟨E, h1, h2, h3, fun d => (h4 d).trans ⟨fun ⟨q1, q2⟩ => (dir d q1 _ q2).1 rfl, fun q => ?_⟩, fun d hd => ?_, fun d hd => ?_, fun d hd => ?_⟩
  · have hd : d ∈ m.decisions := by
      obtain ⟨a, u, q1, _⟩ := q
      exact dec_role.2 ⟨a, q1⟩
    obtain ⟨b', q1, q2⟩ := (C60_direct_effect hc d).1 (hp d hd)
    exact ⟨hd, by rw [q1, q2.2 q]⟩
  · obtain ⟨q0, q1, q2⟩ := (h5 d).1 hd
    exact ⟨(C61_signaling hc hp ho (hp d (h2 d q0)) hE).1 q2, fun q => by simpa using (dir d (h2 d q0) _ q1).2 q⟩
  · obtain ⟨q0, q1, q2, q3⟩ := (h6 d).1 hd
    exact ⟨(man d (h2 d q0) _ q3).1 rfl, fun q => by simpa using (dir d (h2 d q0) _ q1).2 q⟩
  · obtain ⟨q0, q1, q2, q3⟩ := (h7 d).1 hd
    have q4 := h8 d hd
    obtain ⟨b, j1, j2⟩ := C61_revealing_or_denying hc hp ho (hp d (h2 d q0)) hE
    rw [j1] at q4
    cases q4
    exact ⟨j2.1 rfl, fun q => by simpa using (man d (h2 d q0) _ q3).2 q, fun q => by simpa using (dir d (h2 d q0) _ q1).2 q⟩

/-! ### Examples -/

theorem playable_all {m : Macid} (h : ∀ p ∈ m.decisionAgent, p.2 ∈ m.agents) : ∀ b ∈ m.decisions, m.Playable b := by
  intro b hb
  obtain ⟨a, ha⟩ := Dict.mem_keys.1 hb
  exact ⟨a, role_decision.2 ha, h _ (Dict.mem_of_get? ha)⟩

/-- Agent 0 knows "C1" and "C2" and can signal them to agent 1, but cares only for "C1". -/
def exSignals : Macid :=
  ⟨⟨["C1", "DA", "C2", "UB", "UA", "DB"], [("C1", "DA"), ("C2", "DA"), ("C1", "UB"), ("C2", "UB"), ("C1", "UA"), ("DA", "DB"), ("DB", "UA"), ("DB", "UB")]⟩,
    [(0, ["DA"]), (1, ["DB"])], [(0, ["UA"]), (1, ["UB"])], [("DA", 0), ("DB", 1)], [("UA", 0), ("UB", 1)]⟩

theorem exSignals_consistent : exSignals.Consistent :=
  C15_constructor_consistent [("C1", "DA"), ("C2", "DA"), ("C1", "UB"), ("C2", "UB"), ("C1", "UA"), ("DA", "DB"), ("DB", "UA"), ("DB", "UB")]
    [(0, ["DA"]), (1, ["DB"])] [(0, ["UA"]), (1, ["UB"])] exSignals
    (by decide +kernel) (by decide) (by decide) (by decide) (by decide)

theorem exSignals_playable : ∀ b ∈ exSignals.decisions, exSignals.Playable b := playable_all (by decide)

/-- **C61** `signaling` depends on the order in which sets are enumerated: the same decision in the same network is and is not
motivated by signaling, although the documented conditions hold. -/
theorem C61_signaling_order : exSignals.Consistent ∧ (∀ b ∈ exSignals.decisions, exSignals.Playable b) ∧
    SetOrder.Valid SetOrder.id ∧ SetOrder.Valid (fun _ l => l.reverse) ∧
    signaling SetOrder.id exSignals "DA" ["DA", "DB"] = .ok true ∧
    signaling (fun _ l => l.reverse) exSignals "DA" ["DA", "DB"] = .ok false ∧
    exSignals.Signals ["DA", "DB"] "DA" := by
  have h : signaling SetOrder.id exSignals "DA" ["DA", "DB"] = .ok true := by decide +kernel
  refine ⟨exSignals_consistent, exSignals_playable, fun _ _ => List.Perm.refl _, fun _ l => l.reverse_perm, h, by decide +kernel, ?_⟩
  exact (C61_signaling exSignals_consistent exSignals_playable (fun _ _ => List.Perm.refl _) (exSignals_playable "DA" (by decide)) (by decide)).1 h

/-- "UB" is a parent of "DA" -/
def exLoop : Macid :=
  ⟨⟨["UB", "DA", "DB", "UA"], [("UB", "DA"), ("DA", "DB"), ("DB", "UA")]⟩,
    [(0, ["DA"]), (1, ["DB"])], [(0, ["UA"]), (1, ["UB"])], [("DA", 0), ("DB", 1)], [("UA", 0), ("UB", 1)]⟩

theorem exLoop_consistent : exLoop.Consistent :=
  C15_constructor_consistent [("UB", "DA"), ("DA", "DB"), ("DB", "UA")]
    [(0, ["DA"]), (1, ["DB"])] [(0, ["UA"]), (1, ["UB"])] exLoop
    (by decide +kernel) (by decide) (by decide) (by decide) (by decide)

/-- **C61** `signaling` can raise ValueError, and `get_reasoning_patterns` with it -/
theorem C61_signaling_raises : exLoop.Consistent ∧ (∀ b ∈ exLoop.decisions, exLoop.Playable b) ∧
    signaling SetOrder.id exLoop "DA" ["DA", "DB"] = .error .value ∧
    getReasoningPatterns 3 SetOrder.id (fun l => l) exLoop = .error .value := by
  exact ⟨exLoop_consistent, playable_all (by decide), by decide +kernel, by decide +kernel⟩

/-- Agent 0 can only influence what agent 1 learns about the decision "K" of agent 2, who has no motive to decide anything. -/
def exReveal : Macid :=
  ⟨⟨["DA", "S", "K", "DB", "UA", "UB", "X", "UK"], [("DA", "S"), ("K", "S"), ("S", "DB"), ("DB", "UA"), ("DB", "UB"), ("K", "UB"), ("X", "UK")]⟩,
    [(0, ["DA"]), (1, ["DB"]), (2, ["K"])], [(0, ["UA"]), (1, ["UB"]), (2, ["UK"])],
    [("DA", 0), ("DB", 1), ("K", 2)], [("UA", 0), ("UB", 1), ("UK", 2)]⟩

theorem exReveal_consistent : exReveal.Consistent :=
  C15_constructor_consistent [("DA", "S"), ("K", "S"), ("S", "DB"), ("DB", "UA"), ("DB", "UB"), ("K", "UB"), ("X", "UK")]
    [(0, ["DA"]), (1, ["DB"]), (2, ["K"])] [(0, ["UA"]), (1, ["UB"]), (2, ["UK"])] exReveal
    (by decide +kernel) (by decide) (by decide) (by decide) (by decide)

theorem exReveal_playable : ∀ b ∈ exReveal.decisions, exReveal.Playable b := playable_all (by decide)

/-- **C61** the documented conditions are not necessary: `revealing_or_denying` is True, and the decision is listed by
`get_reasoning_patterns`, though its only front-door path runs through a decision that is not effective. -/
theorem C61_revealing_undocumented : exReveal.Consistent ∧ (∀ b ∈ exReveal.decisions, exReveal.Playable b) ∧
    getReasoningPatterns 4 SetOrder.id (fun l => l) exReveal = .ok (some { dirEffect := ["DB"], revDen := ["DA"] }) ∧
    revealingOrDenying SetOrder.id exReveal "DA" ["DA", "DB"] = .ok true ∧ ¬ exReveal.Reveals ["DA", "DB"] "DA" := by
  refine ⟨exReveal_consistent, exReveal_playable, by decide +kernel, by decide +kernel, ?_⟩
  rintro ⟨a, b, ab, u, ub, hs, hub, W, p, hW, hf, he⟩
  have hb : b = "DB" := by
    have h1 := hs.effective
    have h2 := hs.other
    simp only [List.mem_cons, List.not_mem_nil, or_false] at h1
    tauto
  have hab : ab = 1 := by
    have := hs.ownerB
    rw [hb, show exReveal.role "DB" = .decision 1 by decide] at this
    cases this
    rfl
  have hub' : ub = "UB" := by
    have := utility_node exReveal_consistent hub
    rw [hab] at hub
    have key : ∀ v ∈ exReveal.g.nodes, exReveal.role v = .utility 1 → v = "UB" := by decide +kernel
    exact key ub this hub
  subst hub'
  obtain ⟨ps, h1, _, h3⟩ := (C02_find_all_undir_paths exReveal.g exReveal_consistent.wf SetOrder.id (fun _ _ => List.Perm.refl _) "DA" "UB").1
    (by decide) (by decide)
  have h4 : findAllUndirPaths SetOrder.id exReveal.g "DA" "UB" = .ok [["DA", "S", "DB", "UB"], ["DA", "S", "K", "UB"]] := by decide +kernel
  rw [h4] at h1
  cases h1
  have hp := (h3 p).2 hf.path
  simp only [List.mem_cons, List.not_mem_nil, or_false] at hp
  rcases hp.symm with rfl | rfl
  · have := he "K" (by simp) 2 (by decide)
    simp at this
  · obtain ⟨l, x, c, y, r, e, e1, e2⟩ := hf.collider
    match l, e with
    | [], e =>
      simp only [List.nil_append, List.cons.injEq] at e
      obtain ⟨rfl, rfl, rfl, _⟩ := e
      exact absurd e2 (by unfold Graph.Edge; decide)
    | [_], e =>
      simp only [List.cons_append, List.nil_append, List.cons.injEq] at e
      obtain ⟨_, rfl, rfl, rfl, _⟩ := e
      exact absurd e2 (by unfold Graph.Edge; decide)
    | _ :: _ :: l, e =>
      have := congrArg List.length e
      simp at this
      omega

/-- "DB" manipulates agent 0: a network where the loop needs a second round -/
def exManip : Macid :=
  ⟨⟨["DA", "DB", "UA", "UB", "DC", "X", "UC"], [("DA", "DB"), ("DB", "UA"), ("DB", "UB"), ("DA", "UB"), ("DC", "UB"), ("X", "UC")]⟩,
    [(0, ["DA"]), (1, ["DB"]), (2, ["DC"])], [(0, ["UA"]), (1, ["UB"]), (2, ["UC"])],
    [("DA", 0), ("DB", 1), ("DC", 2)], [("UA", 0), ("UB", 1), ("UC", 2)]⟩

theorem exManip_consistent : exManip.Consistent :=
  C15_constructor_consistent [("DA", "DB"), ("DB", "UA"), ("DB", "UB"), ("DA", "UB"), ("DC", "UB"), ("X", "UC")]
    [(0, ["DA"]), (1, ["DB"]), (2, ["DC"])] [(0, ["UA"]), (1, ["UB"]), (2, ["UC"])] exManip
    (by decide +kernel) (by decide) (by decide) (by decide) (by decide)

theorem exManip_playable : ∀ b ∈ exManip.decisions, exManip.Playable b := playable_all (by decide)

/-- all the hypotheses are met, and every kind of answer occurs -/
theorem C62_example : exManip.Consistent ∧ (∀ b ∈ exManip.decisions, exManip.Playable b) ∧
    (∀ d ∈ exManip.decisions, ∀ u a, exManip.role u = .utility a → ¬ exManip.g.Desc u d) ∧
    directEffect exManip "DB" = .ok true ∧ directEffect exManip "DA" = .ok false ∧ directEffect exManip "UA" = .error .key ∧
    manipulation exManip "DA" ["DA", "DB"] = .ok true ∧ manipulation exManip "DA" ["DA"] = .ok false ∧
    signaling SetOrder.id exManip "DA" ["DA", "DB"] = .ok false ∧
    revealingOrDenying SetOrder.id exManip "DA" ["DA", "DB"] = .ok false ∧
    getReasoningPatterns 4 SetOrder.id (fun l => l.reverse) exManip = .ok (some { dirEffect := ["DB"], manip := ["DA"] }) ∧
    getReasoningPatterns 3 SetOrder.id (fun l => l) exSignals = .ok (some { dirEffect := ["DB"], sig := ["DA"] }) := by
  refine ⟨exManip_consistent, exManip_playable, ?_, by decide +kernel, by decide +kernel, by decide +kernel, by decide +kernel, by decide +kernel,
    by decide +kernel, by decide +kernel, by decide +kernel, by decide +kernel⟩
  intro d _ u a hu
  rw [← mem_descendants exManip_consistent.wf]
  have hun := utility_node exManip_consistent hu
  have key : ∀ v ∈ exManip.g.nodes, v ∈ exManip.utilities → exManip.g.descendants v = [] := by decide +kernel
  have huu : u ∈ exManip.utilities := Dict.mem_keys.2 ⟨a, (role_utility exManip_consistent).1 hu⟩
  rw [key u hun huu]
  simp

end Verif

import Verif.Spec.Macid
import Verif.Lemmas.Mech

namespace Verif
namespace Macid
open Graph

theorem Agree.remove {A : Dict Agent (List Node)} {B : Dict Node Agent} (h : Agree A B) {n : Node}
    {a : Agent} (hn : B.get? n = some a) :
    ∃ l, A.get? a = some l ∧ n ∈ l ∧ Agree (A.set a (l.erase n)) (B.erase n) := by
  obtain ⟨l, hl, hnl⟩ := (h.iff n a).1 hn
  refine ⟨l, hl, hnl, Dict.nodup_keys_set h.agentKeys, Dict.nodup_keys_erase h.nodeKeys, ?_, ?_⟩
  · intro n' a'
    rw [Dict.get?_erase, Dict.get?_set]
    have hnd := h.nodup a l hl
    by_cases hn' : n' = n
    · subst hn'
      simp only [if_true]
      constructor
      · intro h'; cases h'
      · rintro ⟨l', hl', hm⟩
        by_cases ha : a' = a
        · simp [ha] at hl'
          subst hl'
          exact absurd hm (hnd.not_mem_erase)
        · simp [ha] at hl'
          have := (h.iff n' a').2 ⟨l', hl', hm⟩
          rw [hn] at this
          exact absurd (Option.some.inj this).symm ha
    · simp only [hn', if_false, h.iff]
      by_cases ha : a' = a
      · subst ha
        simp [hl, List.mem_erase_of_ne hn']
      · simp [ha]
  · intro a' l' hl'
    rw [Dict.get?_set] at hl'
    by_cases ha : a' = a
    · simp [ha] at hl'; subst hl'; exact (h.nodup a l hl).erase _
    · simp [ha] at hl'; exact h.nodup a' l' hl'

theorem Agree.add {A : Dict Agent (List Node)} {B : Dict Node Agent} (h : Agree A B) {n : Node}
    (a : Agent) (hn : B.get? n = none) : Agree (appendRole A a n) (B.set n a) := by
  have hno : ∀ a' l, A.get? a' = some l → n ∉ l := by
    intro a' l hl hm
    have := (h.iff n a').2 ⟨l, hl, hm⟩
    rw [hn] at this; cases this
  have hget : ∀ a', (appendRole A a n).get? a' =
      if a' = a then some ((A.get? a).getD [] ++ [n]) else A.get? a' := by
    intro a'
    unfold appendRole
    split <;> rename_i hx <;> rw [Dict.get?_set] <;> simp [hx]
  refine ⟨?_, Dict.nodup_keys_set h.nodeKeys, ?_, ?_⟩
  · unfold appendRole; split <;> exact Dict.nodup_keys_set h.agentKeys
  · intro n' a'
    rw [Dict.get?_set, hget]
    by_cases hn' : n' = n
    · subst hn'
      simp only [if_true, Option.some.injEq]
      constructor
      · rintro rfl; simp
      · rintro ⟨l, hl, hm⟩
        by_cases ha : a' = a
        · exact ha.symm
        · simp [ha] at hl; exact absurd hm (hno a' l hl)
    · simp only [hn', if_false, h.iff]
      by_cases ha : a' = a
      · subst ha
        cases hA : A.get? a' <;> simp [hn']
      · simp [ha]
  · intro a' l hl
    rw [hget] at hl
    by_cases ha : a' = a
    · simp [ha] at hl
      subst hl
      cases hA : A.get? a with
      | none => simp
      | some l0 =>
        simp only [Option.getD_some]
        rw [List.nodup_append]
        refine ⟨h.nodup a l0 hA, by simp, ?_⟩
        intro x hx y hy
        simp at hy; subst hy
        rintro rfl
        exact hno a l0 hA hx
    · simp [ha] at hl; exact h.nodup a' l hl

theorem dec_get_none {m : Macid} {n : Node} : m.decisionAgent.get? n = none ↔ n ∉ m.decisions :=
  Dict.get?_none

theorem util_get_none {m : Macid} {n : Node} : m.utilityAgent.get? n = none ↔ n ∉ m.utilities :=
  Dict.get?_none

theorem mem_decisions {m : Macid} {n : Node} : n ∈ m.decisions ↔ ∃ a, m.decisionAgent.get? n = some a :=
  Dict.mem_keys

theorem mem_utilities {m : Macid} {n : Node} : n ∈ m.utilities ↔ ∃ a, m.utilityAgent.get? n = some a :=
  Dict.mem_keys

/-- Full effect of `make_chance` on a consistent network. -/
theorem makeChance_spec {m : Macid} (hc : m.Consistent) (n : Node) :
    (n ∉ m.g.nodes → m.makeChance n = (m, .error .key)) ∧
    (n ∈ m.g.nodes → ∃ m', m.makeChance n = (m', .ok ()) ∧ m'.Consistent ∧ m'.g = m.g ∧
      m'.decisionAgent.get? n = none ∧ m'.utilityAgent.get? n = none ∧
      (∀ n', n' ≠ n → m'.decisionAgent.get? n' = m.decisionAgent.get? n' ∧
        m'.utilityAgent.get? n' = m.utilityAgent.get? n') ∧
      m'.agentDecisions.keys = m.agentDecisions.keys ∧
      m'.agentUtilities.keys = m.agentUtilities.keys) := by
  constructor
  · intro hn; unfold makeChance; rw [if_pos hn]
  · intro hn
    unfold makeChance
    rw [if_neg (by simpa using hn)]
    cases hd : m.decisionAgent.get? n with
    | some a =>
      obtain ⟨l, hl, hnl, hA⟩ := hc.dec.remove hd
      simp only [hl, if_pos hnl]
      have hnu : m.utilityAgent.get? n = none :=
        util_get_none.2 (hc.disj n (mem_decisions.2 ⟨a, hd⟩))
      refine ⟨_, rfl, ⟨hc.wf, hA, hc.util, ?_, ?_⟩, rfl, ?_, hnu, ?_, ?_, rfl⟩
      · intro n' hn'
        apply hc.disj
        unfold decisions at hn' ⊢
        rw [Dict.keys_erase] at hn'
        exact (List.mem_filter.1 hn').1
      · intro n' hn'
        apply hc.nodes
        rcases hn' with h | h
        · left
          unfold decisions at h ⊢
          rw [Dict.keys_erase] at h
          exact (List.mem_filter.1 h).1
        · exact Or.inr h
      · simp [Dict.get?_erase]
      · intro n' hn'; simp [Dict.get?_erase, hn']
      · have : a ∈ m.agentDecisions.keys := Dict.mem_keys.2 ⟨l, hl⟩
        simp [Dict.keys_set, this]
    | none =>
      simp only
      cases hu : m.utilityAgent.get? n with
      | some a =>
        obtain ⟨l, hl, hnl, hA⟩ := hc.util.remove hu
        simp only [hl, if_pos hnl]
        refine ⟨_, rfl, ⟨hc.wf, hc.dec, hA, ?_, ?_⟩, rfl, hd, ?_, ?_, rfl, ?_⟩
        · intro n' hn' hn''
          apply hc.disj n' hn'
          unfold utilities at hn'' ⊢
          rw [Dict.keys_erase] at hn''
          exact (List.mem_filter.1 hn'').1
        · intro n' hn'
          apply hc.nodes
          rcases hn' with h | h
          · exact Or.inl h
          · right
            unfold utilities at h ⊢
            rw [Dict.keys_erase] at h
            exact (List.mem_filter.1 h).1
        · simp [Dict.get?_erase]
        · intro n' hn'; simp [Dict.get?_erase, hn']
        · have : a ∈ m.agentUtilities.keys := Dict.mem_keys.2 ⟨l, hl⟩
          simp [Dict.keys_set, this]
      | none =>
        exact ⟨m, rfl, hc, rfl, hd, hu, fun _ _ => ⟨rfl, rfl⟩, rfl, rfl⟩

theorem mem_keys_appendRole {A : Dict Agent (List Node)} {a a' : Agent} {n : Node} :
    a' ∈ (appendRole A a n).keys ↔ a' ∈ A.keys ∨ a' = a := by
  unfold appendRole; split <;> exact Dict.mem_keys_set

/-- Full effect of the three role changing calls. -/
theorem runOp_spec {m : Macid} (hc : m.Consistent) (op : RoleOp) :
    (op.node ∉ m.g.nodes → m.runOp op = (m, .error .key)) ∧
    (op.node ∈ m.g.nodes → ∃ m', m.runOp op = (m', .ok ()) ∧ m'.Consistent ∧ m'.g = m.g ∧
      ∀ n, m'.role n = specOp m.g.nodes m.role op n) := by
  have hspec := makeChance_spec hc op.node
  constructor
  · intro hn
    have h := hspec.1 hn
    cases op <;> simp only [RoleOp.node] at h <;> simp only [runOp, makeDecision, makeUtility, h]
  · intro hn
    obtain ⟨m', h1, h2, h3, h4, h5, h6, h7, h8⟩ := hspec.2 hn
    cases op with
    | makeChance n =>
      simp only [RoleOp.node] at *
      refine ⟨m', h1, h2, h3, ?_⟩
      intro n'
      unfold specOp role
      by_cases hnn : n' = n
      · subst hnn; simp [RoleOp.node, hn, h4, h5, RoleOp.role]
      · simp [RoleOp.node, hnn, h6 n' hnn]
    | makeDecision n a =>
      simp only [RoleOp.node] at *
      refine ⟨{ m' with agentDecisions := appendRole m'.agentDecisions a n,
                        decisionAgent := m'.decisionAgent.set n a },
        by simp only [runOp, makeDecision, h1], ?_, h3, ?_⟩
      · refine ⟨h2.wf, h2.dec.add a h4, h2.util, ?_, ?_⟩
        · intro n' hn'
          unfold decisions at hn'
          rw [Dict.mem_keys_set] at hn'
          rcases hn' with h | rfl
          · exact h2.disj n' h
          · exact util_get_none.1 h5
        · intro n' hn'
          unfold decisions at hn'
          rw [Dict.mem_keys_set] at hn'
          rcases hn' with (h | rfl) | h
          · exact h2.nodes n' (Or.inl h)
          · exact h3 ▸ hn
          · exact h2.nodes n' (Or.inr h)
      · intro n'
        unfold specOp role
        simp only [Dict.get?_set]
        by_cases hnn : n' = n
        · subst hnn; simp [RoleOp.node, hn, RoleOp.role]
        · simp [RoleOp.node, hnn, h6 n' hnn]
    | makeUtility n a =>
      simp only [RoleOp.node] at *
      refine ⟨{ m' with agentUtilities := appendRole m'.agentUtilities a n,
                        utilityAgent := m'.utilityAgent.set n a },
        by simp only [runOp, makeUtility, h1], ?_, h3, ?_⟩
      · refine ⟨h2.wf, h2.dec, h2.util.add a h5, ?_, ?_⟩
        · intro n' hn' hn''
          unfold utilities at hn''
          rw [Dict.mem_keys_set] at hn''
          rcases hn'' with h | rfl
          · exact h2.disj n' hn' h
          · exact dec_get_none.1 h4 hn'
        · intro n' hn'
          unfold utilities at hn'
          rw [Dict.mem_keys_set] at hn'
          rcases hn' with h | h | rfl
          · exact h2.nodes n' (Or.inl h)
          · exact h2.nodes n' (Or.inr h)
          · exact h3 ▸ hn
      · intro n'
        unfold specOp role
        simp only [Dict.get?_set]
        by_cases hnn : n' = n
        · subst hnn; simp [RoleOp.node, hn, RoleOp.role, h4]
        · simp [RoleOp.node, hnn, h6 n' hnn]

theorem role_decision {m : Macid} {n : Node} {a : Agent} :
    m.role n = .decision a ↔ m.decisionAgent.get? n = some a := by
  unfold role
  cases m.decisionAgent.get? n with
  | some b => simp
  | none => cases m.utilityAgent.get? n <;> simp

theorem role_utility {m : Macid} (hc : m.Consistent) {n : Node} {a : Agent} :
    m.role n = .utility a ↔ m.utilityAgent.get? n = some a := by
  unfold role
  cases hd : m.decisionAgent.get? n with
  | some b =>
    have := util_get_none.2 (hc.disj n (mem_decisions.2 ⟨b, hd⟩))
    simp [this]
  | none => cases m.utilityAgent.get? n <;> simp

theorem role_eq_utility {m : Macid} {n : Node} {a : Agent} (h : m.role n = .utility a) :
    m.utilityAgent.get? n = some a := by
  unfold role at h
  cases hd : m.decisionAgent.get? n with
  | some b => simp [hd] at h
  | none =>
    cases hu : m.utilityAgent.get? n with
    | some b => simp [hd, hu] at h; simp [h]
    | none => simp [hd, hu] at h

/-- `makeAll` with a role changing call. -/
theorem makeAll_spec (f : Node → RoleOp) (hf : ∀ n, (f n).node = n) (r : Role) (hr : ∀ n, (f n).role = r) :
    ∀ (ns : List Node) {m : Macid}, m.Consistent → (∀ n ∈ ns, n ∈ m.g.nodes) →
    ∃ m', makeAll (fun m n => m.runOp (f n)) m ns = .ok m' ∧ m'.Consistent ∧ m'.g = m.g ∧
      ∀ n, m'.role n = if n ∈ ns then r else m.role n := by
  intro ns
  induction ns with
  | nil => intro m hc _; exact ⟨m, rfl, hc, rfl, by simp⟩
  | cons n ns ih =>
    intro m hc hns
    obtain ⟨m1, h1, h2, h3, h4⟩ := (runOp_spec hc (f n)).2 (by rw [hf]; exact hns n (by simp))
    obtain ⟨m', h5, h6, h7, h8⟩ := ih h2 (by intro k hk; rw [h3]; exact hns k (by simp [hk]))
    refine ⟨m', ?_, h6, h7.trans h3, ?_⟩
    · simp only [makeAll, h1]
      exact h5
    · intro k
      rw [h8, h4]
      unfold specOp
      rw [hf, hr]
      by_cases hkn : k = n
      · subst hkn; simp [hns k (by simp)]
      · simp [hkn]

/-- The loop of `copy_without_cpds`. -/
theorem copyRoles_spec {m : Macid} (hm : m.Consistent) :
    ∀ (as : List Agent) {acc : Macid}, acc.Consistent → (∀ n, n ∈ acc.g.nodes ↔ n ∈ m.g.nodes) →
    as.Nodup → (∀ a ∈ as, a ∈ m.agentUtilities.keys) →
    ((∀ a ∈ as, a ∈ m.agentDecisions.keys) →
      ∃ m', copyRoles m acc as = .ok m' ∧ m'.Consistent ∧ m'.g = acc.g ∧
        ∀ n, m'.role n = if ∃ a ∈ as, (m.role n).owner = some a then m.role n else acc.role n) ∧
    ((∃ a ∈ as, a ∉ m.agentDecisions.keys) → copyRoles m acc as = .error .key) := by
  intro as
  induction as with
  | nil =>
    intro acc hc _ _ _
    exact ⟨fun _ => ⟨acc, rfl, hc, rfl, by simp⟩, by simp⟩
  | cons a as ih =>
    intro acc hc hn hnd hau
    rw [List.nodup_cons] at hnd
    by_cases ha : a ∈ m.agentDecisions.keys
    · obtain ⟨ds, hds⟩ := Dict.mem_keys.1 ha
      obtain ⟨us, hus⟩ := Dict.mem_keys.1 (hau a (by simp))
      have hdsn : ∀ n ∈ ds, n ∈ acc.g.nodes := by
        intro n hn'
        rw [hn]
        exact hm.nodes n (Or.inl (mem_decisions.2 ⟨a, (hm.dec.iff n a).2 ⟨ds, hds, hn'⟩⟩))
      have husn : ∀ n ∈ us, n ∈ acc.g.nodes := by
        intro n hn'
        rw [hn]
        exact hm.nodes n (Or.inr (mem_utilities.2 ⟨a, (hm.util.iff n a).2 ⟨us, hus, hn'⟩⟩))
      obtain ⟨m1, h1, h2, h3, h4⟩ := makeAll_spec (fun n => .makeDecision n a) (fun _ => rfl)
        (.decision a) (fun _ => rfl) ds hc hdsn
      obtain ⟨m2, h5, h6, h7, h8⟩ := makeAll_spec (fun n => .makeUtility n a) (fun _ => rfl)
        (.utility a) (fun _ => rfl) us h2 (by rw [h3]; exact husn)
      have hstep : copyRoles m acc (a :: as) = copyRoles m m2 as := by
        unfold copyRoles
        rw [Dict.get_ok.2 hds]
        simp only
        have h1' : makeAll (fun m n => m.makeDecision n a) acc ds = .ok m1 := h1
        rw [h1']
        simp only
        rw [Dict.get_ok.2 hus]
        simp only
        have h5' : makeAll (fun m n => m.makeUtility n a) m1 us = .ok m2 := h5
        rw [h5']
        simp only
        cases as <;> rfl
      have hIH := ih (acc := m2) h6 (by rw [h7, h3]; exact hn) hnd.2 (fun b hb => hau b (by simp [hb]))
      rw [hstep]
      refine ⟨?_, ?_⟩
      · intro hall
        obtain ⟨m', g1, g2, g3, g4⟩ := hIH.1 (fun b hb => hall b (by simp [hb]))
        refine ⟨m', g1, g2, g3.trans (h7.trans h3), ?_⟩
        intro n
        rw [g4, h8, h4]
        have hdiff : n ∈ ds ↔ m.role n = .decision a := by
          rw [role_decision, hm.dec.iff]
          constructor
          · intro h; exact ⟨ds, hds, h⟩
          · rintro ⟨l, hl, h⟩; rw [hds] at hl; cases hl; exact h
        have hdiff' : n ∈ us ↔ m.role n = .utility a := by
          rw [role_utility hm, hm.util.iff]
          constructor
          · intro h; exact ⟨us, hus, h⟩
          · rintro ⟨l, hl, h⟩; rw [hus] at hl; cases hl; exact h
        simp only [hdiff, hdiff', List.mem_cons, exists_eq_or_imp]
        cases hrn : m.role n with
        | chance => simp [Role.owner]
        | decision b =>
          simp only [Role.owner, Option.some.injEq, reduceCtorEq, if_false, Role.decision.injEq]
          by_cases hb : b = a
          · subst hb; simp
          · simp [hb]
        | utility b =>
          simp only [Role.owner, Option.some.injEq, reduceCtorEq, if_false, Role.utility.injEq]
          by_cases hb : b = a
          · subst hb; simp
          · simp [hb]
      · rintro ⟨b, hb, hbn⟩
        rcases List.mem_cons.1 hb with rfl | hb
        · exact absurd ha hbn
        · exact hIH.2 ⟨b, hb, hbn⟩
    · refine ⟨?_, ?_⟩
      · intro hall; exact absurd (hall a (by simp)) ha
      · intro _
        unfold copyRoles
        rw [Dict.get_err ha]

theorem new_consistent : new.Consistent := by
  refine ⟨wf_empty, ⟨?_, ?_, ?_, ?_⟩, ⟨?_, ?_, ?_, ?_⟩, ?_, ?_⟩ <;>
    simp [new, Dict.keys, Dict.get?, decisions, utilities]

theorem newCid_consistent : newCid.Consistent := by
  refine ⟨wf_empty, ⟨?_, ?_, ?_, ?_⟩, ⟨?_, ?_, ?_, ?_⟩, ?_, ?_⟩ <;>
    simp [newCid, Dict.keys, Dict.get?, decisions, utilities]

theorem addNodes_nodes : ∀ (ns : List Node) (g : Graph), (∀ x ∈ g.nodes, x ∉ ns) → ns.Nodup →
    (g.addNodes ns).nodes = g.nodes ++ ns ∧ (g.addNodes ns).edges = g.edges := by
  intro ns
  induction ns with
  | nil => intro g _ _; simp [addNodes]
  | cons n ns ih =>
    intro g h hn
    rw [List.nodup_cons] at hn
    have h1 : (g.addNode n).nodes = g.nodes ++ [n] := by
      unfold addNode
      rw [if_neg]
      intro h'
      exact h n h' (by simp)
    have := ih (g.addNode n) (by
      intro x hx
      rw [h1] at hx
      rcases List.mem_append.1 hx with hx | hx
      · exact fun h' => h x hx (by simp [h'])
      · simp at hx; subst hx; exact hn.1) hn.2
    unfold addNodes at this ⊢
    simp only [List.foldl_cons]
    rw [this.1, this.2, h1, addNode_edges]
    simp

theorem addEdges_nodes_eq : ∀ (es : List (Node × Node)) {g g' : Graph},
    (∀ e ∈ es, e.1 ∈ g.nodes ∧ e.2 ∈ g.nodes) → g.addEdges es = .ok g' → g'.nodes = g.nodes := by
  intro es
  induction es with
  | nil => intro g g' _ h; simp [addEdges] at h; rw [h]
  | cons e es ih =>
    intro g g' he h
    obtain ⟨u, v⟩ := e
    unfold addEdges at h
    cases h1 : g.addEdge u v with
    | error e => rw [h1] at h; cases h
    | ok g1 =>
      rw [h1] at h
      have hg1 : g1.nodes = g.nodes := by
        unfold addEdge at h1
        split at h1
        · cases h1
        · split at h1
          · cases h1
          · cases h1
            have := he (u, v) (by simp)
            unfold nxAddEdge
            simp only
            have e1 : g.addNode u = g := by unfold addNode; rw [if_pos this.1]
            have e2 : g.addNode v = g := by unfold addNode; rw [if_pos this.2]
            rw [e1, e2]
            split <;> rfl
      rw [ih (by rw [hg1]; exact fun e h => he e (by simp [h])) h, hg1]

theorem foldl_set_get? (a : Agent) : ∀ (l : List Node) (acc : Dict Node Agent) (n : Node),
    (l.foldl (fun acc n => acc.set n a) acc).get? n = if n ∈ l then some a else acc.get? n := by
  intro l
  induction l with
  | nil => intro acc n; simp
  | cons x l ih =>
    intro acc n
    simp only [List.foldl_cons, ih, Dict.get?_set, List.mem_cons]
    by_cases h : n ∈ l
    · simp [h]
    · simp [h]

theorem foldl_set_keys (a : Agent) : ∀ (l : List Node) (acc : Dict Node Agent), acc.keys.Nodup →
    (l.foldl (fun acc n => acc.set n a) acc).keys.Nodup := by
  intro l
  induction l with
  | nil => intro acc h; exact h
  | cons x l ih => intro acc h; exact ih _ (Dict.nodup_keys_set h)

theorem invert_agree {d : Dict Agent (List Node)} (hk : d.keys.Nodup)
    (hn : (d.flatMap (·.2)).Nodup) : Agree d (invert d) := by
  have hget : ∀ (d : Dict Agent (List Node)) (acc : Dict Node Agent) (n : Node),
      (d.flatMap (·.2)).Nodup → (∀ a, acc.get? n = some a → n ∉ d.flatMap (·.2)) →
      ∀ a, (d.foldl (fun acc p => p.2.foldl (fun acc n => acc.set n p.1) acc) acc).get? n = some a ↔
        acc.get? n = some a ∨ ∃ l, (a, l) ∈ d ∧ n ∈ l := by
    intro d
    induction d with
    | nil => intro acc n _ _ a; simp
    | cons p d ih =>
      intro acc n hnd hacc a
      simp only [List.flatMap_cons] at hnd hacc
      have hnd' := List.nodup_append.1 hnd
      simp only [List.foldl_cons]
      rw [ih _ n hnd'.2.1 ?_ a, foldl_set_get?]
      · obtain ⟨b, l0⟩ := p
        simp only [List.mem_cons, Prod.mk.injEq]
        by_cases h : n ∈ l0
        · have h0 : acc.get? n = none := by
            cases hx : acc.get? n with
            | none => rfl
            | some c => exact absurd (List.mem_append.2 (Or.inl h)) (hacc c hx)
          simp only [h, if_true, h0]
          constructor
          · rintro (h' | ⟨l, hl, hm⟩)
            · cases h'; exact Or.inr ⟨l0, Or.inl ⟨rfl, rfl⟩, h⟩
            · exact Or.inr ⟨l, Or.inr hl, hm⟩
          · rintro (h' | ⟨l, ⟨rfl, rfl⟩ | hl, hm⟩)
            · cases h'
            · exact Or.inl rfl
            · exact Or.inr ⟨l, hl, hm⟩
        · simp only [h, if_false]
          constructor
          · rintro (h' | ⟨l, hl, hm⟩)
            · exact Or.inl h'
            · exact Or.inr ⟨l, Or.inr hl, hm⟩
          · rintro (h' | ⟨l, ⟨rfl, rfl⟩ | hl, hm⟩)
            · exact Or.inl h'
            · exact absurd hm h
            · exact Or.inr ⟨l, hl, hm⟩
      · intro c hc
        rw [foldl_set_get?] at hc
        by_cases h : n ∈ p.2
        · intro h'
          exact hnd'.2.2 n h n h' rfl
        · simp only [h, if_false] at hc
          intro h'
          exact hacc c hc (List.mem_append.2 (Or.inr h'))
  have hkeys : ∀ (d : Dict Agent (List Node)) (acc : Dict Node Agent), acc.keys.Nodup →
      (d.foldl (fun acc p => p.2.foldl (fun acc n => acc.set n p.1) acc) acc).keys.Nodup := by
    intro d
    induction d with
    | nil => intro acc h; exact h
    | cons p d ih => intro acc h; exact ih _ (foldl_set_keys _ _ _ h)
  refine ⟨hk, hkeys d [] (by simp [Dict.keys]), ?_, ?_⟩
  · intro n a
    unfold invert
    rw [hget d [] n hn (by simp [Dict.get?])]
    simp only [Dict.get?, reduceCtorEq, false_or]
    constructor
    · rintro ⟨l, h1, h2⟩; exact ⟨l, Dict.get?_of_mem hk h1, h2⟩
    · rintro ⟨l, h1, h2⟩; exact ⟨l, Dict.mem_of_get? h1, h2⟩
  · intro a l hl
    have := Dict.mem_of_get? hl
    obtain ⟨s, t, rfl⟩ := List.append_of_mem this
    simp only [List.flatMap_append, List.flatMap_cons] at hn
    exact (List.nodup_append.1 (List.nodup_append.1 hn).2.1).1

/-- keys of the two per-agent dictionaries -/
structure KeysGrow (m m' : Macid) (as : List Agent) : Prop where
  dec : ∀ a, a ∈ m.agentDecisions.keys → a ∈ m'.agentDecisions.keys
  util : ∀ a, a ∈ m.agentUtilities.keys → a ∈ m'.agentUtilities.keys
  decOnly : ∀ a, a ∈ m'.agentDecisions.keys → a ∈ m.agentDecisions.keys ∨ a ∈ as
  utilOnly : ∀ a, a ∈ m'.agentUtilities.keys → a ∈ m.agentUtilities.keys ∨ a ∈ as

theorem KeysGrow.refl (m : Macid) (as : List Agent) : KeysGrow m m as :=
  ⟨fun _ h => h, fun _ h => h, fun _ h => Or.inl h, fun _ h => Or.inl h⟩

theorem KeysGrow.trans {m m' m'' : Macid} {as : List Agent} (h : KeysGrow m m' as) (h' : KeysGrow m' m'' as) :
    KeysGrow m m'' as :=
  ⟨fun a k => h'.dec a (h.dec a k), fun a k => h'.util a (h.util a k),
    fun a k => (h'.decOnly a k).elim (h.decOnly a) Or.inr, fun a k => (h'.utilOnly a k).elim (h.utilOnly a) Or.inr⟩

theorem KeysGrow.mono {m m' : Macid} {as bs : List Agent} (h : KeysGrow m m' as) (hs : ∀ a ∈ as, a ∈ bs) :
    KeysGrow m m' bs :=
  ⟨h.dec, h.util, fun a k => (h.decOnly a k).imp id (hs a), fun a k => (h.utilOnly a k).imp id (hs a)⟩

theorem makeChance_keys (m : Macid) (n : Node) : KeysGrow m (m.makeChance n).1 [] := by
  unfold makeChance
  split
  · exact .refl _ _
  · split
    · dsimp only
      split
      · exact ⟨fun _ h => h, fun _ h => h, fun _ h => Or.inl h, fun _ h => Or.inl h⟩
      · rename_i l hl
        split
        · refine ⟨fun a h => Dict.mem_keys_set.2 (Or.inl h), fun _ h => h, fun a h => ?_, fun _ h => Or.inl h⟩
          rcases Dict.mem_keys_set.1 h with h | rfl
          · exact Or.inl h
          · exact Or.inl (Dict.mem_keys.2 ⟨l, hl⟩)
        · exact ⟨fun _ h => h, fun _ h => h, fun _ h => Or.inl h, fun _ h => Or.inl h⟩
    · split
      · dsimp only
        split
        · exact ⟨fun _ h => h, fun _ h => h, fun _ h => Or.inl h, fun _ h => Or.inl h⟩
        · rename_i l hl
          split
          · refine ⟨fun _ h => h, fun a h => Dict.mem_keys_set.2 (Or.inl h), fun _ h => Or.inl h, fun a h => ?_⟩
            rcases Dict.mem_keys_set.1 h with h | rfl
            · exact Or.inl h
            · exact Or.inl (Dict.mem_keys.2 ⟨l, hl⟩)
          · exact ⟨fun _ h => h, fun _ h => h, fun _ h => Or.inl h, fun _ h => Or.inl h⟩
      · exact .refl _ _

theorem makeDecision_keys (m : Macid) (n : Node) (a : Agent) : KeysGrow m (m.makeDecision n a).1 [a] := by
  have h := (makeChance_keys m n).mono (bs := [a]) (by simp)
  unfold makeDecision
  generalize m.makeChance n = x at h
  obtain ⟨m1, r⟩ := x
  cases r with
  | error e => exact h
  | ok u =>
    refine h.trans ⟨fun b hb => mem_keys_appendRole.2 (Or.inl hb), fun _ h => h, fun b hb => ?_, fun _ h => Or.inl h⟩
    rcases mem_keys_appendRole.1 hb with hb | rfl
    · exact Or.inl hb
    · simp

theorem makeUtility_keys (m : Macid) (n : Node) (a : Agent) : KeysGrow m (m.makeUtility n a).1 [a] := by
  have h := (makeChance_keys m n).mono (bs := [a]) (by simp)
  unfold makeUtility
  generalize m.makeChance n = x at h
  obtain ⟨m1, r⟩ := x
  cases r with
  | error e => exact h
  | ok u =>
    refine h.trans ⟨fun _ h => h, fun b hb => mem_keys_appendRole.2 (Or.inl hb), fun _ h => Or.inl h, fun b hb => ?_⟩
    rcases mem_keys_appendRole.1 hb with hb | rfl
    · exact Or.inl hb
    · simp

theorem makeAll_keys {mk : Macid → Node → Macid × Py Unit} {as : List Agent}
    (hmk : ∀ m n, KeysGrow m (mk m n).1 as) : ∀ {ns : List Node} {m m' : Macid}, makeAll mk m ns = .ok m' →
    KeysGrow m m' as
  | [], m, m', h => by
    simp only [makeAll, Except.ok.injEq] at h
    subst h
    exact .refl _ _
  | n :: ns, m, m', h => by
    unfold makeAll at h
    have hk := hmk m n
    generalize mk m n = x at h hk
    obtain ⟨m1, r⟩ := x
    cases r with
    | error e => simp at h
    | ok u => exact hk.trans (makeAll_keys hmk h)

theorem copyRoles_keys {m : Macid} : ∀ {as : List Agent} {acc m' : Macid}, copyRoles m acc as = .ok m' →
    KeysGrow acc m' as
  | [], acc, m', h => by
    simp only [copyRoles, Except.ok.injEq] at h
    subst h
    exact .refl _ _
  | a :: as, acc, m', h => by
    unfold copyRoles at h
    cases h1 : m.agentDecisions.get a with
    | error e => simp [h1] at h
    | ok ds =>
      simp only [h1] at h
      cases h2 : makeAll (fun m n => m.makeDecision n a) acc ds with
      | error e => simp [h2] at h
      | ok acc1 =>
        simp only [h2] at h
        cases h3 : m.agentUtilities.get a with
        | error e => simp [h3] at h
        | ok us =>
          simp only [h3] at h
          cases h4 : makeAll (fun m n => m.makeUtility n a) acc1 us with
          | error e => simp [h4] at h
          | ok acc2 =>
            simp only [h4] at h
            exact (((makeAll_keys (fun m n => makeDecision_keys m n a) h2).trans
              (makeAll_keys (fun m n => makeUtility_keys m n a) h4)).mono (by simp)).trans
              ((copyRoles_keys h).mono (by intro b hb; simp [hb]))

theorem copyWithoutCpds_keys {base m m' : Macid} (h : copyWithoutCpds base m = .ok m') :
    KeysGrow base m' m.agentUtilities.keys := by
  unfold copyWithoutCpds at h
  split at h
  · simp at h
  · rename_i g _
    have := copyRoles_keys h
    exact ⟨this.dec, this.util, this.decOnly, this.utilOnly⟩

end Macid
end Verif
